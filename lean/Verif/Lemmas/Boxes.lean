import Verif.Model.Support
import Verif.Spec.Support
import Verif.Lemmas.Param2

/-! Helper lemmas for C104: names of the parameters in every history, and the table of intervals. -/

namespace Verif.Support
open Verif Verif.Param Verif.Spec

theorem update_names (f : Family) (vals : List ℝ) (o o' : Obj) (hu : update f vals o = .ok o') : o'.names = o.names := by
  cases f with
  | simple s =>
    simp only [update] at hu
    split at hu <;> simp at hu
    subst hu; simp [simpleUpdate]
  | _ =>
    revert hu
    unfold update
    split <;> simp_all only [reduceCtorEq, false_implies, implies_true]
    all_goals
      rintro ⟨⟩
      simp only [asymLaplaceUpdate, bernoulliUpdate, betaUpdate, betaScaledUpdate,
        exponentialUpdate, gammaUpdate,
        halfNormalUpdate, halfStudentTUpdate, invGammaUpdate, kumaraswamyUpdate,
        normalUpdate, nbUpdate, riceUpdate, skewNormalUpdate, skewStudentTUpdate,
        studentTUpdate, waldUpdate, zinbUpdate, Obj.setAll_names, Obj.set_names] <;>
      (repeat' split) <;> simp

theorem bind_ok {α β : Type} {x : Except Err α} {g : α → Except Err β} {b : β} (h : (x >>= g) = .ok b) :
    ∃ a, x = .ok a ∧ g a = .ok b := by
  cases x with
  | error e => cases h
  | ok a => exact ⟨a, rfl, h⟩

theorem param_names (f : Family) (kw : Kw) (o o' : Obj) (h : parametrize f kw o = .ok o') :
    o'.names ∈ (ways f).map Way.allowed := by
  cases f with
  | simple s =>
    simp only [parametrize] at h
    injection h with h
    subst h
    have : (simpleParam (simpleFam s) kw o).names = (simpleFam s).args := by
      simp only [simpleParam]
      split <;> (try simp only [simpleUpdate]) <;> split <;> simp
    rw [this]
    cases s <;> simp [ways, Way.plain, simpleFam]
  | kumaraswamy =>
    simp only [parametrize, kumaraswamyParam] at h
    split at h <;> injection h with h <;> subst h <;> simp [kumaraswamyUpdate, ways, Way.plain]
  | betaScaled =>
    simp only [parametrize, betaScaledParam] at h
    split at h <;> injection h with h <;> subst h
    · have := update_names .betaScaled
      simp only [betaScaledUpdate, Obj.setAll_names]
      repeat' split
      all_goals simp [ways]
    · simp [ways]
  | _ =>
    simp only [parametrize, asymLaplaceParam, bernoulliParam, betaParam, exponentialParam, gammaLikeParam, halfNormalParam,
      halfStudentTParam, normalParam, nbParam, riceParam, skewNormalParam, skewStudentTParam, studentTParam, waldParam, zinbParam] at h
    split at h
    · cases h
    · repeat' first
        | (obtain ⟨x, hx, h⟩ := bind_ok h; cases hx)
        | (obtain ⟨x, hx, h⟩ := bind_ok h; clear hx)
        | (cases h; done)
        | split at h
      all_goals
        cases h
        simp only [asymLaplaceUpdate, bernoulliUpdate, betaUpdate, exponentialUpdate, gammaUpdate, halfNormalUpdate,
          halfStudentTUpdate, invGammaUpdate, normalUpdate, nbUpdate, riceUpdate, skewNormalUpdate, skewStudentTUpdate,
          studentTUpdate, waldUpdate, zinbUpdate, Obj.setAll_names]
        (repeat' split) <;> simp [ways, Way.plain]

theorem construct_names (f : Family) (kw : Kw) (o : Obj) (h : construct f kw = .ok o) :
    o.names ∈ (ways f).map Way.allowed := by
  cases f with
  | betaScaled => exact param_names .betaScaled _ _ _ h
  | _ => exact param_names _ _ _ _ h

theorem box_inv (f : Family) (s : SObj) (h : SAny f s) :
    s.obj.names ∈ (ways f).map Way.allowed ∧ ∃ N, s.box = boxOf N s.obj.names f := by
  induction h with
  | @build kw s hc =>
    obtain ⟨o, ho, hc⟩ := bind_ok hc
    injection hc with hc
    subst hc
    exact ⟨construct_names f kw o ho, _, rfl⟩
  | @reparam kw s s' _ hp ih =>
    obtain ⟨o, ho, hp⟩ := bind_ok hp
    injection hp with hp
    subst hp
    exact ⟨param_names f kw _ o ho, _, rfl⟩
  | @refit vals s s' _ hp ih =>
    obtain ⟨o, ho, hp⟩ := bind_ok hp
    injection hp with hp
    subst hp
    have := update_names f vals _ o ho
    simp only [this]
    exact ih

def Sound (b : EReal × Option EReal) (r : Range) : Prop :=
  ∀ hi, b.2 = some hi → ∀ x : ℝ, b.1 ≤ x → (x : EReal) ≤ hi → r.mem x

def Full (b : EReal × Option EReal) (r : Range) : Prop :=
  ∃ hi, b.2 = some hi ∧ ∀ x : ℝ, r.Inner x → b.1 ≤ x ∧ (x : EReal) ≤ hi

theorem sound_pos : Sound pos above := by
  intro hi _ x h1 _
  refine ⟨?_, by simp [above]⟩
  have : eps ≤ x := EReal.coe_le_coe_iff.1 h1
  simp only [above, Bool.false_eq_true, if_false]
  exact_mod_cast lt_of_lt_of_le eps_pos this

theorem sound_pos0 : Sound pos fromZero := by
  intro hi _ x h1 _
  refine ⟨?_, by simp [fromZero]⟩
  have : eps ≤ x := EReal.coe_le_coe_iff.1 h1
  simp only [fromZero, if_true]
  exact_mod_cast le_trans eps_pos.le this

theorem sound_free : Sound free line := by
  intro hi _ x h1 _
  simp [Range.mem, line]

theorem sound_unit : Sound Support.unit openUnit := by
  intro hi hhi x h1 h2
  have h3 : eps ≤ x := EReal.coe_le_coe_iff.1 h1
  simp only [Support.unit, Option.some.injEq] at hhi
  subst hhi
  have h4 : x ≤ 1 - eps := EReal.coe_le_coe_iff.1 h2
  have := eps_pos
  refine ⟨?_, ?_⟩ <;> simp only [openUnit, Bool.false_eq_true, if_false]
  · exact_mod_cast lt_of_lt_of_le eps_pos h3
  · exact_mod_cast (by linarith : x < 1)

theorem sound_geom : Sound ((eps : ℝ), some 1) ⟨0, 1, false, true⟩ := by
  intro hi hhi x h1 h2
  have h3 : eps ≤ x := EReal.coe_le_coe_iff.1 h1
  simp only [Option.some.injEq] at hhi
  subst hhi
  refine ⟨?_, h2⟩
  simp only [Bool.false_eq_true, if_false]
  exact_mod_cast lt_of_lt_of_le eps_pos h3

theorem sound_turn : Sound ((-Real.pi : ℝ), some (Real.pi : ℝ)) ⟨(-Real.pi : ℝ), (Real.pi : ℝ), true, true⟩ := by
  intro hi hhi x h1 h2
  simp only [Option.some.injEq] at hhi
  subst hhi
  exact ⟨h1, h2⟩

theorem sound_nu : Sound ((1e-4 : ℝ), some ⊤) above := by
  intro hi _ x h1 _
  refine ⟨?_, by simp [above]⟩
  have : (1e-4 : ℝ) ≤ x := EReal.coe_le_coe_iff.1 h1
  simp only [above, Bool.false_eq_true, if_false]
  exact_mod_cast (by norm_num at this; linarith : (0 : ℝ) < x)

theorem full_pos : Full pos above := by
  refine ⟨⊤, rfl, fun x hx => ⟨?_, le_top⟩⟩
  have := hx.2.1
  simp only [above, zero_add] at this
  exact this

theorem full_pos0 : Full pos fromZero := by
  refine ⟨⊤, rfl, fun x hx => ⟨?_, le_top⟩⟩
  have := hx.2.1
  simp only [fromZero, zero_add] at this
  exact this

theorem full_free : Full free line := ⟨⊤, rfl, fun _ _ => ⟨bot_le, le_top⟩⟩

theorem full_one (b : Bool) {x : ℝ} (hx : (Range.mk 0 1 false b).Inner x) :
    ((eps : ℝ) : EReal) ≤ x ∧ (x : EReal) ≤ ((1 - eps : ℝ) : EReal) := by
  have h1 := hx.2.1
  have h2 := hx.2.2
  simp only [zero_add] at h1 h2
  refine ⟨h1, ?_⟩
  have : x + eps ≤ 1 := by exact_mod_cast h2
  exact_mod_cast (by linarith : x ≤ 1 - eps)

theorem full_unit : Full Support.unit openUnit := ⟨_, rfl, fun _ hx => full_one false hx⟩

theorem le_one_of {x : ℝ} (h : (x : EReal) ≤ ((1 - eps : ℝ) : EReal)) : (x : EReal) ≤ 1 := by
  have : x ≤ 1 - eps := EReal.coe_le_coe_iff.1 h
  have := eps_pos
  exact_mod_cast (by linarith : x ≤ 1)

theorem full_bern : Full ((eps : ℝ), some 1) openUnit :=
  ⟨_, rfl, fun _ hx => ⟨(full_one false hx).1, le_one_of (full_one false hx).2⟩⟩

theorem full_geom : Full ((eps : ℝ), some 1) ⟨0, 1, false, true⟩ :=
  ⟨_, rfl, fun _ hx => ⟨(full_one true hx).1, le_one_of (full_one true hx).2⟩⟩

theorem full_turn : Full ((-Real.pi : ℝ), some (Real.pi : ℝ)) ⟨(-Real.pi : ℝ), (Real.pi : ℝ), true, true⟩ :=
  ⟨_, rfl, fun _ hx => hx.1⟩

theorem full_p : Full pos openUnit := ⟨_, rfl, fun _ hx => ⟨(full_one false hx).1, le_top⟩⟩

theorem full_sigma : Full Support.unit ⟨0, ((1 / 2 : ℝ) : EReal), false, false⟩ := by
  refine ⟨_, rfl, fun x hx => ?_⟩
  have h1 := hx.2.1
  have h2 := hx.2.2
  simp only [zero_add] at h1 h2
  refine ⟨h1, ?_⟩
  have : x + eps ≤ 1 / 2 := by exact_mod_cast h2
  exact_mod_cast (by linarith : x ≤ 1 - eps)

set_option maxHeartbeats 4000000 in
theorem box_pairs (f : Family) (names : List String) (hn : names ∈ (ways f).map Way.allowed) (N : Option ℝ) (M : ℝ) :
    ∀ p ∈ names.zip (boxOf N names f), (Sound p.2 (docRange M f p.1) ∨ Loose f p.1) ∧ (Full p.2 (docRange M f p.1) ∨ Short f p.1) := by
  have s1 := sound_pos
  have s2 := sound_pos0
  have s3 := sound_free
  have s4 := sound_unit
  have s5 := sound_geom
  have s6 := sound_turn
  have s7 := sound_nu
  have f1 := full_pos
  have f2 := full_pos0
  have f3 := full_free
  have f4 := full_unit
  have f5 := full_geom
  have f6 := full_turn
  have f7 := full_bern
  have f8 := full_sigma
  have f9 := full_p
  cases f with
  | simple t =>
    cases t <;> simp only [ways, Way.plain, List.map_cons, List.map_nil, List.mem_singleton] at hn <;> subst hn <;>
      simp only [boxOf, List.zip_cons_cons, List.zip_nil_right, List.mem_cons, List.not_mem_nil, or_false, forall_eq_or_imp, forall_eq] <;>
      (try simp only [docRange]) <;> (repeat' apply And.intro) <;> first
        | exact Or.inl (by assumption)
        | exact Or.inr (by simp [Loose])
        | exact Or.inr (by simp [Short])
  | _ =>
    simp only [ways, Way.plain, List.map_cons, List.map_nil, List.mem_cons, List.not_mem_nil, or_false] at hn
    rcases hn with rfl | rfl | rfl <;>
      simp only [boxOf, List.cons.injEq, String.reduceEq, and_false, if_false, and_true, if_true,
        List.zip_cons_cons, List.zip_nil_right, List.mem_cons, List.not_mem_nil, or_false, forall_eq_or_imp, forall_eq] <;>
      (try simp only [docRange]) <;> (repeat' apply And.intro) <;> first
        | exact Or.inl (by assumption)
        | exact Or.inr (by simp [Loose])
        | exact Or.inr (by simp [Short])

end Verif.Support
