import Verif.Model.Support
import Verif.Spec.Support
import Verif.Spec.Rebuild
import Verif.Lemmas.Param2

/-!
# C104: support and ranges of the parameters
-/

namespace Verif.Props
open Verif Verif.Param Verif.Spec Verif.Support

/-! ### The support -/

private def varies : Family → Bool
  | .simple .betaBinomial | .simple .binomial | .betaScaled | .simple .discreteUniform | .simple .hyperGeometric
  | .simple .pareto | .simple .triangular | .simple .truncatedNormal | .simple .uniform | .simple .ziBinomial => true
  | _ => false

private noncomputable def const (f : Family) : EReal × EReal := paramSupport (fun _ => none) (initSupport (fun _ => none) f) f

private noncomputable def cur (o : Obj) (f : Family) : EReal × EReal := updateSupport (val o) o (const f) f

private theorem update_const {f : Family} (h : varies f = false) (raw : String → ℝ) (o : Obj) (old : EReal × EReal) :
    updateSupport raw o old f = old := by
  cases f with
  | simple s => cases s <;> first | rfl | simp [varies] at h
  | _ => first | rfl | simp [varies] at h

private theorem param_const {f : Family} (h : varies f = false) (kw : Kw) : paramSupport kw (const f) f = const f := by
  cases f with
  | simple s => cases s <;> first | rfl | simp [varies] at h
  | _ => first | rfl | simp [varies] at h

private theorem init_const {f : Family} (h : varies f = false) (kw : Kw) :
    paramSupport kw (initSupport kw f) f = const f := by
  cases f with
  | simple s => cases s <;> first | rfl | simp [varies] at h
  | _ => first | rfl | simp [varies] at h

private theorem int64_whole (x : ℝ) : IsWhole (int64 x) := by
  unfold int64
  split
  · exact ⟨⌊x⌋, rfl⟩
  · exact ⟨⌈x⌉, rfl⟩

private theorem int64_of_whole {x : ℝ} (h : IsWhole x) : int64 x = x := by
  obtain ⟨k, rfl⟩ := h
  simp [int64]

/-- attributes that are whole -/
private def WholeAttrs (o : Obj) : Family → Prop
  | .simple .betaBinomial | .simple .binomial | .simple .ziBinomial => IsWhole (val o "n")
  | .simple .discreteUniform => IsWhole (val o "lower") ∧ IsWhole (val o "upper")
  | .simple .hyperGeometric => IsWhole (val o "N") ∧ IsWhole (val o "k") ∧ IsWhole (val o "n")
  | _ => True

private theorem len_two {vals : List ℝ} (h : vals.length = 2) : ∃ a b, vals = [a, b] := by
  match vals, h with
  | [a, b], _ => exact ⟨a, b, rfl⟩
private theorem len_three {vals : List ℝ} (h : vals.length = 3) : ∃ a b c, vals = [a, b, c] := by
  match vals, h with
  | [a, b, c], _ => exact ⟨a, b, c, rfl⟩

/-- what an update leaves behind -/
private theorem simple_update (t : Simple) (vals : List ℝ) (o : Obj) (old : EReal × EReal) (hl : vals.length = (simpleFam t).args.length)
    (hw : t = .hyperGeometric → ∀ x ∈ vals, IsWhole x) (hv : varies (.simple t) = true) :
    updateSupport (fun k => (((simpleFam t).args.zip vals).lookup k).getD 0) (simpleUpdate (simpleFam t) vals o) old (.simple t) =
      cur (simpleUpdate (simpleFam t) vals o) (.simple t) ∧ WholeAttrs (simpleUpdate (simpleFam t) vals o) (.simple t) := by
  cases t <;> simp only [varies, Bool.false_eq_true] at hv
  case hyperGeometric =>
    obtain ⟨N, k, n, rfl⟩ := len_three (by simpa [simpleFam] using hl)
    have hN := hw rfl N (by simp)
    have hk := hw rfl k (by simp)
    have hn := hw rfl n (by simp)
    have eN : val (simpleUpdate (simpleFam .hyperGeometric) [N, k, n] o) "N" = N := by
      simp [val, simpleUpdate, simpleFam, Obj.setAll, Obj.set, int64_of_whole hN]
    have ek : val (simpleUpdate (simpleFam .hyperGeometric) [N, k, n] o) "k" = k := by
      simp [val, simpleUpdate, simpleFam, Obj.setAll, Obj.set, int64_of_whole hk]
    have en : val (simpleUpdate (simpleFam .hyperGeometric) [N, k, n] o) "n" = n := by
      simp [val, simpleUpdate, simpleFam, Obj.setAll, Obj.set, int64_of_whole hn]
    refine ⟨?_, by simpa only [WholeAttrs, eN, ek, en] using ⟨hN, hk, hn⟩⟩
    simp only [cur, updateSupport, eN, ek, en]
    simp [simpleFam, List.lookup]
  case betaBinomial =>
    obtain ⟨a, b, c, rfl⟩ := len_three (by simpa [simpleFam] using hl)
    refine ⟨rfl, ?_⟩
    simpa [WholeAttrs, val, simpleUpdate, simpleFam, Obj.setAll, Obj.set] using int64_whole c
  case ziBinomial =>
    obtain ⟨a, b, c, rfl⟩ := len_three (by simpa [simpleFam] using hl)
    refine ⟨rfl, ?_⟩
    simpa [WholeAttrs, val, simpleUpdate, simpleFam, Obj.setAll, Obj.set] using int64_whole b
  case binomial =>
    obtain ⟨a, b, rfl⟩ := len_two (by simpa [simpleFam] using hl)
    refine ⟨rfl, ?_⟩
    simpa [WholeAttrs, val, simpleUpdate, simpleFam, Obj.setAll, Obj.set] using int64_whole a
  case discreteUniform =>
    obtain ⟨a, b, rfl⟩ := len_two (by simpa [simpleFam] using hl)
    refine ⟨rfl, ?_⟩
    simpa [WholeAttrs, val, simpleUpdate, simpleFam, Obj.setAll, Obj.set] using
      (⟨⟨⌊a⌋, rfl⟩, ⟨⌈b⌉, rfl⟩⟩ : IsWhole (⌊a⌋ : ℝ) ∧ IsWhole (⌈b⌉ : ℝ))
  all_goals exact ⟨rfl, trivial⟩

private def Inv (f : Family) (s : SObj) : Prop :=
  (varies f = false → s.support = const f) ∧
  (varies f = true → s.obj.frozen = true → s.support = cur s.obj f ∧ WholeAttrs s.obj f)

private theorem simple_param (t : Simple) (kw : Kw) (o : Obj) (old : EReal × EReal)
    (hw : t = .hyperGeometric → ∀ k x, kw k = some x → IsWhole x) (hv : varies (.simple t) = true)
    (hu : updates kw (.simple t) = true) :
    updateSupport (fun k => (kw k).getD 0) (simpleParam (simpleFam t) kw o) old (.simple t) =
      cur (simpleParam (simpleFam t) kw o) (.simple t) ∧ WholeAttrs (simpleParam (simpleFam t) kw o) (.simple t) := by
  have hall : allNotNone ((simpleFam t).args.map kw) = true := hu
  have hp : simpleParam (simpleFam t) kw o = simpleUpdate (simpleFam t) ((simpleFam t).args.map fun k => (kw k).getD 0)
      (if (simpleFam t).preset then { { o.setAll ((simpleFam t).args.map fun k => (k, kw k)) with names := (simpleFam t).args }
        with params := some ((simpleFam t).args.map kw) }
        else { o.setAll ((simpleFam t).args.map fun k => (k, kw k)) with names := (simpleFam t).args }) := by
    simp only [simpleParam, hall, if_true]
  rw [hp]
  have := simple_update t ((simpleFam t).args.map fun k => (kw k).getD 0) (if (simpleFam t).preset then { { o.setAll ((simpleFam t).args.map fun k => (k, kw k)) with names := (simpleFam t).args }
        with params := some ((simpleFam t).args.map kw) }
        else { o.setAll ((simpleFam t).args.map fun k => (k, kw k)) with names := (simpleFam t).args }) old (by simp) (by
      intro ht x hx
      obtain ⟨k, hk, rfl⟩ := List.mem_map.1 hx
      have : (kw k).isSome := by
        unfold allNotNone at hall
        rw [List.all_eq_true] at hall
        exact hall _ (List.mem_map.2 ⟨k, hk, rfl⟩)
      obtain ⟨y, hy⟩ := Option.isSome_iff_exists.1 this
      rw [hy]
      exact hw ht k y hy) hv
  refine ⟨?_, this.2⟩
  rw [← this.1]
  cases t <;> simp only [varies, Bool.false_eq_true] at hv
  case hyperGeometric => simp [updateSupport, simpleFam, List.lookup]
  all_goals rfl

private theorem betaScaled_update (a b : ℝ) (l u : Option ℝ) (o : Obj) (raw : String → ℝ) (old : EReal × EReal) :
    updateSupport raw (betaScaledUpdate a b l u o) old .betaScaled = cur (betaScaledUpdate a b l u o) .betaScaled := rfl

private theorem inv (f : Family) (s : SObj) (h : SReach f s) : Inv f s := by
  induction h with
  | @build kw s hw hc =>
    unfold sConstruct at hc
    cases ho : construct f kw with
    | error e => rw [ho] at hc; cases hc
    | ok o =>
      rw [ho, Except.ok_bind'] at hc
      injection hc with hc
      subst hc
      constructor
      · intro hv
        simp only
        rw [update_const hv, init_const hv, ite_self]
      · intro hv hf
        simp only at hf ⊢
        cases f with
        | simple t =>
          have ho' : o = simpleParam (simpleFam t) kw blank := by
            simp only [construct, parametrize] at ho
            injection ho with ho
            exact ho.symm
          subst ho'
          cases hu : updates kw (.simple t) with
          | true => rw [if_pos rfl]; exact simple_param t kw blank _ (fun ht => hw (by rw [ht])) hv hu
          | false =>
            exfalso
            have hall : allNotNone ((simpleFam t).args.map kw) = false := hu
            simp only [simpleParam, hall, Bool.false_eq_true, if_false] at hf
            revert hf
            split <;> simp [Obj.setAll_frozen, blank]
        | betaScaled =>
          simp only [construct, betaScaledParam] at ho
          cases ha : kw "alpha" with
          | none =>
            simp [ha] at ho
            subst ho
            simp [Obj.setAll_frozen, blank] at hf
          | some a =>
            cases hb : kw "beta" with
            | none =>
              simp [ha, hb] at ho
              subst ho
              simp [Obj.setAll_frozen, blank] at hf
            | some b =>
              simp [ha, hb] at ho
              subst ho
              simp only [updates, ha, hb, allNotNone, List.all_cons, Option.isSome_some, List.all_nil, Bool.and_true, if_true]
              exact ⟨rfl, trivial⟩
        | _ => simp [varies] at hv
  | @reparam kw s s' hs hw hcomp hp ih =>
    unfold sParam at hp
    cases ho : parametrize f kw s.obj with
    | error e => rw [ho] at hp; cases hp
    | ok o =>
      rw [ho, Except.ok_bind'] at hp
      injection hp with hp
      subst hp
      constructor
      · intro hv
        simp only
        rw [update_const hv, ih.1 hv, param_const hv, ite_self]
      · intro hv hf
        simp only at hf ⊢
        cases f with
        | simple t =>
          have ho' : o = simpleParam (simpleFam t) kw s.obj := by
            simp only [parametrize] at ho
            injection ho with ho
            exact ho.symm
          subst ho'
          cases hu : updates kw (.simple t) with
          | true => rw [if_pos rfl]; exact simple_param t kw _ _ (fun ht => hw (by rw [ht])) hv hu
          | false =>
            exfalso
            have hall : allNotNone ((simpleFam t).args.map kw) = false := hu
            have hfro : s.obj.frozen = true := by
              simp only [simpleParam, hall, Bool.false_eq_true, if_false] at hf
              revert hf
              split <;> simp [Obj.setAll_frozen]
            rcases hcomp with hcomp | hcomp
            · rw [hfro] at hcomp; cases hcomp
            · obtain ⟨w, hwm, hreq⟩ := hcomp
              have : allNotNone ((simpleFam t).args.map kw) = true := by
                unfold allNotNone
                rw [List.all_eq_true]
                intro x hx
                obtain ⟨k, hk, rfl⟩ := List.mem_map.1 hx
                apply hreq k
                cases t <;> simp only [ways, List.mem_singleton] at hwm <;> subst hwm <;> simpa [Way.plain, simpleFam] using hk
              rw [this] at hall
              cases hall
        | betaScaled =>
          simp only [parametrize, betaScaledParam] at ho
          cases ha : kw "alpha" with
          | none =>
            exfalso
            simp [ha] at ho
            subst ho
            rcases hcomp with hcomp | ⟨w, hwm, hreq⟩
            · rw [hcomp] at hf; cases hf
            · simp only [ways, List.mem_singleton] at hwm
              subst hwm
              have := hreq "alpha" (by simp)
              rw [ha] at this
              cases this
          | some a =>
            cases hb : kw "beta" with
            | none =>
              exfalso
              simp [ha, hb] at ho
              subst ho
              rcases hcomp with hcomp | ⟨w, hwm, hreq⟩
              · rw [hcomp] at hf; cases hf
              · simp only [ways, List.mem_singleton] at hwm
                subst hwm
                have := hreq "beta" (by simp)
                rw [hb] at this
                cases this
            | some b =>
              simp [ha, hb] at ho
              subst ho
              simp only [updates, ha, hb, allNotNone, List.all_cons, Option.isSome_some, List.all_nil, Bool.and_true, if_true]
              exact ⟨rfl, trivial⟩
        | _ => simp [varies] at hv
  | @refit vals s s' hs hw hp ih =>
    unfold sUpdate at hp
    cases ho : update f vals s.obj with
    | error e => rw [ho] at hp; cases hp
    | ok o =>
      rw [ho, Except.ok_bind'] at hp
      injection hp with hp
      subst hp
      constructor
      · intro hv
        simp only
        rw [update_const hv, ih.1 hv]
      · intro hv hf
        simp only at hf ⊢
        cases f with
        | simple t =>
          simp only [update] at ho
          split at ho
          · rename_i hl
            injection ho with ho
            subst ho
            have := simple_update t vals s.obj s.support hl (fun ht => hw (by rw [ht])) hv
            refine ⟨?_, this.2⟩
            rw [← this.1]
            cases t <;> simp only [varies, Bool.false_eq_true] at hv <;> rfl
          · cases ho
        | betaScaled =>
          match vals, ho with
          | [a, b, l, u], ho =>
            simp only [update] at ho
            injection ho with ho
            subst ho
            exact ⟨rfl, trivial⟩
        | _ => simp [varies] at hv

private theorem glb_coe {S : Set ℝ} {a : ℝ} (h : IsGLB S a) (hne : S.Nonempty) :
    IsGLB ((fun x : ℝ => (x : EReal)) '' S) (a : EReal) := by
  constructor
  · rintro _ ⟨x, hx, rfl⟩
    exact EReal.coe_le_coe_iff.2 (h.1 hx)
  · intro b hb
    induction b with
    | bot => exact bot_le
    | top =>
      obtain ⟨x, hx⟩ := hne
      exact absurd (hb ⟨x, hx, rfl⟩) (by simp)
    | coe b => exact EReal.coe_le_coe_iff.2 (h.2 fun x hx => EReal.coe_le_coe_iff.1 (hb ⟨x, hx, rfl⟩))

private theorem lub_coe {S : Set ℝ} {a : ℝ} (h : IsLUB S a) (hne : S.Nonempty) :
    IsLUB ((fun x : ℝ => (x : EReal)) '' S) (a : EReal) := by
  constructor
  · rintro _ ⟨x, hx, rfl⟩
    exact EReal.coe_le_coe_iff.2 (h.1 hx)
  · intro b hb
    induction b with
    | top => exact le_top
    | bot =>
      obtain ⟨x, hx⟩ := hne
      exact absurd (hb ⟨x, hx, rfl⟩) (by simp)
    | coe b => exact EReal.coe_le_coe_iff.2 (h.2 fun x hx => EReal.coe_le_coe_iff.1 (hb ⟨x, hx, rfl⟩))

private theorem lub_top {S : Set ℝ} (h : ∀ M : ℝ, ∃ x ∈ S, M < x) : IsLUB ((fun x : ℝ => (x : EReal)) '' S) ⊤ := by
  refine ⟨fun _ _ => le_top, ?_⟩
  intro b hb
  induction b with
  | top => exact le_rfl
  | bot =>
    obtain ⟨x, hx, _⟩ := h 0
    exact absurd (hb ⟨x, hx, rfl⟩) (by simp)
  | coe b =>
    obtain ⟨x, hx, hlt⟩ := h b
    exact absurd (EReal.coe_le_coe_iff.1 (hb ⟨x, hx, rfl⟩)) (not_le.2 hlt)

private theorem glb_bot {S : Set ℝ} (h : ∀ M : ℝ, ∃ x ∈ S, x < M) : IsGLB ((fun x : ℝ => (x : EReal)) '' S) ⊥ := by
  refine ⟨fun _ _ => bot_le, ?_⟩
  intro b hb
  induction b with
  | bot => exact le_rfl
  | top =>
    obtain ⟨x, hx, _⟩ := h 0
    exact absurd (hb ⟨x, hx, rfl⟩) (by simp)
  | coe b =>
    obtain ⟨x, hx, hlt⟩ := h b
    exact absurd (EReal.coe_le_coe_iff.1 (hb ⟨x, hx, rfl⟩)) (not_le.2 hlt)

private theorem hull_univ : Hull Set.univ (⊥, ⊤) :=
  ⟨glb_bot fun M => ⟨M - 1, trivial, by linarith⟩, lub_top fun M => ⟨M + 1, trivial, by linarith⟩⟩

private theorem hull_Ioo {a b : ℝ} (h : a < b) : Hull (Set.Ioo a b) ((a : EReal), (b : EReal)) :=
  ⟨glb_coe (isGLB_Ioo h) (Set.nonempty_Ioo.2 h), lub_coe (isLUB_Ioo h) (Set.nonempty_Ioo.2 h)⟩

private theorem hull_Icc {a b : ℝ} (h : a ≤ b) : Hull (Set.Icc a b) ((a : EReal), (b : EReal)) :=
  ⟨glb_coe (isGLB_Icc h) (Set.nonempty_Icc.2 h), lub_coe (isLUB_Icc h) (Set.nonempty_Icc.2 h)⟩

private theorem hull_Ici (a : ℝ) : Hull (Set.Ici a) ((a : EReal), ⊤) :=
  ⟨glb_coe isGLB_Ici Set.nonempty_Ici, lub_top fun M => ⟨max a M + 1, by simp; linarith [le_max_left a M],
    by linarith [le_max_right a M]⟩⟩

private theorem hull_Ioi (a : ℝ) : Hull (Set.Ioi a) ((a : EReal), ⊤) :=
  ⟨glb_coe isGLB_Ioi Set.nonempty_Ioi, lub_top fun M => ⟨max a M + 1, by simp; linarith [le_max_left a M],
    by linarith [le_max_right a M]⟩⟩

private theorem hull_wholes {P : ℤ → Prop} {a b : ℤ} (h : ∀ k, P k ↔ a ≤ k ∧ k ≤ b) (hab : a ≤ b) :
    Hull (wholes P) (((a : ℝ) : EReal), ((b : ℝ) : EReal)) := by
  have ha : IsLeast (wholes P) (a : ℝ) :=
    ⟨⟨a, rfl, (h a).2 ⟨le_rfl, hab⟩⟩, by rintro _ ⟨k, rfl, hk⟩; exact_mod_cast ((h k).1 hk).1⟩
  have hb : IsGreatest (wholes P) (b : ℝ) :=
    ⟨⟨b, rfl, (h b).2 ⟨hab, le_rfl⟩⟩, by rintro _ ⟨k, rfl, hk⟩; exact_mod_cast ((h k).1 hk).2⟩
  exact ⟨glb_coe ha.isGLB ⟨_, ha.1⟩, lub_coe hb.isLUB ⟨_, hb.1⟩⟩

private theorem hull_from {P : ℤ → Prop} {a : ℤ} (h : ∀ k, P k ↔ a ≤ k) : Hull (wholes P) (((a : ℝ) : EReal), ⊤) := by
  have ha : IsLeast (wholes P) (a : ℝ) := ⟨⟨a, rfl, (h a).2 le_rfl⟩, by rintro _ ⟨k, rfl, hk⟩; exact_mod_cast (h k).1 hk⟩
  refine ⟨glb_coe ha.isGLB ⟨_, ha.1⟩, lub_top fun M => ⟨((max a (⌊M⌋ + 1) : ℤ) : ℝ), ⟨_, rfl, (h _).2 (le_max_left _ _)⟩, ?_⟩⟩
  calc M < ((⌊M⌋ + 1 : ℤ) : ℝ) := by push_cast; exact Int.lt_floor_add_one M
    _ ≤ _ := by exact_mod_cast le_max_right _ _

private theorem hull_bit : Hull ({0, 1} : Set ℝ) (0, 1) := by
  have ha : IsLeast ({0, 1} : Set ℝ) 0 := ⟨by simp, by rintro x (rfl | rfl) <;> norm_num⟩
  have hb : IsGreatest ({0, 1} : Set ℝ) 1 := ⟨by simp, by rintro x (rfl | rfl) <;> norm_num⟩
  have := (⟨glb_coe ha.isGLB ⟨_, ha.1⟩, lub_coe hb.isLUB ⟨_, hb.1⟩⟩ : Hull ({0, 1} : Set ℝ) (((0 : ℝ) : EReal), ((1 : ℝ) : EReal)))
  rw [EReal.coe_zero, EReal.coe_one] at this
  exact this

private theorem hull_const {f : Family} (h : varies f = false) (a : String → ℝ) : Hull (docSet a f) (const f) := by
  have h01 := hull_Ioo (zero_lt_one' ℝ)
  have hi := hull_Ici 0
  have ho := hull_Ioi 0
  have hz : Hull (wholes fun k => 0 ≤ k) (((0 : ℤ) : ℝ), ⊤) := hull_from fun k => Iff.rfl
  have hone : Hull (wholes fun k => 0 < k) (((1 : ℤ) : ℝ), ⊤) := hull_from fun k => Int.lt_iff_add_one_le
  have hpi := hull_Icc (show -Real.pi ≤ Real.pi by linarith [Real.pi_pos])
  simp only [EReal.coe_zero, EReal.coe_one, Int.cast_zero, Int.cast_one] at h01 hi ho hz hone
  cases f with
  | simple s =>
    cases s <;> first
      | (simp only [varies, Bool.true_eq_false] at h; done)
      | exact hull_univ
      | exact hi
      | exact hz
      | exact hone
      | exact hpi
  | _ => first
      | (simp only [varies, Bool.true_eq_false] at h; done)
      | exact hull_univ
      | exact hull_bit
      | exact h01
      | exact hi
      | exact ho
      | exact hz

private theorem hull_cur {f : Family} (h : varies f = true) (o : Obj) (hs : Sensible (val o) f) (hw : WholeAttrs o f) :
    Hull (docSet (val o) f) (cur o f) := by
  have count : ∀ x : ℝ, IsWhole x → 0 ≤ x → Hull (wholes fun k => 0 ≤ k ∧ (k : ℝ) ≤ x) (0, (x : EReal)) := by
    rintro _ ⟨n, rfl⟩ hn
    have := hull_wholes (P := fun k => 0 ≤ k ∧ (k : ℝ) ≤ (n : ℝ)) (a := 0) (b := n) (fun k => by simp) (by exact_mod_cast hn)
    simpa using this
  cases f with
  | betaScaled => exact hull_Ioo hs
  | simple s =>
    cases s <;> simp only [varies, Bool.false_eq_true] at h
    case betaBinomial => exact count _ hw hs
    case binomial => exact count _ hw hs
    case ziBinomial =>
      simp only [docSet, cur, updateSupport]
      by_cases hp : val o "psi" = 0
      · simp only [hp, if_true]
        have := count 0 ⟨0, by simp⟩ le_rfl
        simpa using this
      · simp only [hp, if_false]
        exact count _ hw hs
    case discreteUniform =>
      obtain ⟨⟨a, ha⟩, ⟨b, hb⟩⟩ := hw
      simp only [Sensible] at hs
      simp only [docSet, cur, updateSupport]
      rw [ha, hb] at hs ⊢
      exact hull_wholes (fun k => by simp) (by exact_mod_cast hs)
    case hyperGeometric =>
      obtain ⟨⟨N, hN⟩, ⟨k, hk⟩, ⟨n, hn⟩⟩ := hw
      simp only [Sensible] at hs
      simp only [docSet, cur, updateSupport]
      rw [hN, hk, hn] at hs ⊢
      have := hull_wholes (P := fun j => max 0 ((n : ℝ) - N + k) ≤ j ∧ (j : ℝ) ≤ min (k : ℝ) n) (a := max 0 (n - N + k)) (b := min k n)
        (fun j => by constructor <;> rintro ⟨h1, h2⟩ <;> exact ⟨by exact_mod_cast h1, by exact_mod_cast h2⟩) (by
          obtain ⟨h1, h2, h3, h4⟩ := hs
          norm_cast at h1 h2 h3 h4
          omega)
      push_cast at this
      exact this
    case pareto => exact hull_Ici _
    case triangular => exact hull_Icc (le_of_lt hs)
    case truncatedNormal => exact hull_Icc (le_of_lt hs)
    case uniform => exact hull_Icc (le_of_lt hs)
  | _ => simp [varies] at h

/-- In every history, `support` of a frozen distribution holds the exact ends (greatest lower and least upper bound) of the
documented set of values at its current parameters. -/
theorem support_documented {f : Family} {s : SObj} (h : SReach f s) (hf : s.obj.frozen = true) (hs : Sensible (val s.obj) f) :
    Hull (docSet (val s.obj) f) s.support := by
  have hi := inv f s h
  cases hv : varies f with
  | false => rw [hi.1 hv]; exact hull_const hv _
  | true =>
    obtain ⟨h1, h2⟩ := hi.2 hv hf
    rw [h1]
    exact hull_cur hv s.obj hs h2

/-- a binomial that is refitted -/
example : ∃ s s', sConstruct (.simple .binomial) (kwOf [("n", 10), ("p", 1 / 2)]) = .ok s ∧
    sUpdate (.simple .binomial) [7, 1 / 3] s = .ok s' ∧ SReach (.simple .binomial) s' ∧ s'.obj.frozen = true ∧
    Sensible (val s'.obj) (.simple .binomial) ∧ s'.support = (0, ((7 : ℝ) : EReal)) := by
  refine ⟨_, _, rfl, rfl, .refit (vals := [7, 1 / 3])
    (.build (kw := kwOf [("n", 10), ("p", 1 / 2)]) (by simp) rfl) (by simp) rfl, by simp [simpleUpdate], ?_, ?_⟩
  · simp [Sensible, val, simpleUpdate, simpleFam, Obj.setAll, Obj.set, int64]
  · simp [updateSupport, val, simpleUpdate, simpleFam, Obj.setAll, Obj.set, int64]

/-! ### More arguments narrow the support -/

private theorem simple_congr (t : Simple) {kw kw' : Kw} (h : ∀ k ∈ (simpleFam t).args, kw k = kw' k) (o : Obj) :
    simpleParam (simpleFam t) kw o = simpleParam (simpleFam t) kw' o := by
  have h1 : (simpleFam t).args.map kw = (simpleFam t).args.map kw' := List.map_congr_left h
  have h2 : (simpleFam t).args.map (fun k => (k, kw k)) = (simpleFam t).args.map fun k => (k, kw' k) :=
    List.map_congr_left fun k hk => by rw [h k hk]
  have h3 : (simpleFam t).args.map (fun k => (kw k).getD 0) = (simpleFam t).args.map fun k => (kw' k).getD 0 :=
    List.map_congr_left fun k hk => by rw [h k hk]
  simp only [simpleParam, h1, h2, h3]

private theorem simple_val (t : Simple) (kw : Kw) (o : Obj) (hu : updates kw (.simple t) = true) :
    (t = .uniform ∨ t = .truncatedNormal → kw "lower" = some (val (simpleParam (simpleFam t) kw o) "lower") ∧
      kw "upper" = some (val (simpleParam (simpleFam t) kw o) "upper")) ∧
    (t = .discreteUniform → ∃ l u, kw "lower" = some l ∧ kw "upper" = some u ∧
      val (simpleParam (simpleFam t) kw o) "lower" = ⌊l⌋ ∧ val (simpleParam (simpleFam t) kw o) "upper" = ⌈u⌉) := by
  have hall : allNotNone ((simpleFam t).args.map kw) = true := hu
  refine ⟨?_, ?_⟩
  · rintro (rfl | rfl)
    · simp only [simpleFam, allNotNone, List.map_cons, List.map_nil, List.all_cons, List.all_nil, Bool.and_true, Bool.and_eq_true] at hall
      obtain ⟨a, ha⟩ := Option.isSome_iff_exists.1 hall.1
      obtain ⟨b, hb⟩ := Option.isSome_iff_exists.1 hall.2
      simp [val, simpleParam, simpleFam, simpleUpdate, allNotNone, ha, hb, Obj.setAll, Obj.set]
    · simp only [simpleFam, allNotNone, List.map_cons, List.map_nil, List.all_cons, List.all_nil, Bool.and_true, Bool.and_eq_true] at hall
      obtain ⟨a, ha⟩ := Option.isSome_iff_exists.1 hall.1
      obtain ⟨b, hb⟩ := Option.isSome_iff_exists.1 hall.2.1
      obtain ⟨c, hc⟩ := Option.isSome_iff_exists.1 hall.2.2.1
      obtain ⟨d, hd⟩ := Option.isSome_iff_exists.1 hall.2.2.2
      simp [val, simpleParam, simpleFam, simpleUpdate, allNotNone, ha, hb, hc, hd, Obj.setAll, Obj.set]
  · rintro rfl
    simp only [simpleFam, allNotNone, List.map_cons, List.map_nil, List.all_cons, List.all_nil, Bool.and_true, Bool.and_eq_true] at hall
    obtain ⟨a, ha⟩ := Option.isSome_iff_exists.1 hall.1
    obtain ⟨b, hb⟩ := Option.isSome_iff_exists.1 hall.2
    refine ⟨a, b, ha, hb, ?_⟩
    simp [val, simpleParam, simpleFam, simpleUpdate, allNotNone, ha, hb, Obj.setAll, Obj.set]

/-- `b` lies in `a` -/
def Within (b a : EReal × EReal) : Prop := a.1 ≤ b.1 ∧ b.2 ≤ a.2

private theorem param_mono {kw kw' : Kw} (hk : ∀ k x, kw k = some x → kw' k = some x) (t : Simple) :
    Within (paramSupport kw' (initSupport kw' (.simple t)) (.simple t)) (paramSupport kw (initSupport kw (.simple t)) (.simple t)) := by
  have key : Within (((kw' "lower").map fun x : ℝ => (x : EReal)).getD ⊥, ((kw' "upper").map fun x : ℝ => (x : EReal)).getD ⊤)
      (((kw "lower").map fun x : ℝ => (x : EReal)).getD ⊥, ((kw "upper").map fun x : ℝ => (x : EReal)).getD ⊤) := by
    constructor
    · cases h : kw "lower" with
      | none => simp
      | some x => rw [hk _ _ h]
    · cases h : kw "upper" with
      | none => simp
      | some x => rw [hk _ _ h]
  cases t <;> first | exact key | exact ⟨le_rfl, le_rfl⟩

/-- An incomplete distribution's support contains that of the distribution completed by further arguments.  Hypotheses:
a Pareto's `m` is not negative, the numbers of a DiscreteUniform are whole, the bounds of a BetaScaled are the same. -/
theorem support_narrows {f : Family} {kw kw' : Kw} {s s' : SObj} (hk : ∀ k x, kw k = some x → kw' k = some x)
    (h : sConstruct f kw = .ok s) (h' : sConstruct f kw' = .ok s')
    (hp : f = .simple .pareto → ∀ x, kw' "m" = some x → 0 ≤ x)
    (hd : f = .simple .discreteUniform → ∀ k x, kw' k = some x → IsWhole x)
    (hb : f = .betaScaled → kw' "lower" = kw "lower" ∧ kw' "upper" = kw "upper") : Within s'.support s.support := by
  unfold sConstruct at h h'
  cases ho : construct f kw with
  | error e => rw [ho] at h; cases h
  | ok o =>
  cases ho' : construct f kw' with
  | error e => rw [ho'] at h'; cases h'
  | ok o' =>
  rw [ho, Except.ok_bind'] at h
  rw [ho', Except.ok_bind'] at h'
  injection h with h
  injection h' with h'
  subst h h'
  cases hv : varies f with
  | false =>
    simp only
    rw [update_const hv, update_const hv, init_const hv, init_const hv, ite_self, ite_self]
    exact ⟨le_rfl, le_rfl⟩
  | true =>
  cases f with
  | betaScaled =>
    obtain ⟨hl, hu⟩ := hb rfl
    have hval : ∀ (kw : Kw) (o : Obj), construct .betaScaled kw = .ok o → val o "lower" = (kw "lower").getD 0 ∧ val o "upper" = (kw "upper").getD 1 := by
      intro kw o ho
      simp only [construct, betaScaledParam] at ho
      cases ha : kw "alpha" <;> cases hb : kw "beta" <;> simp [ha, hb] at ho <;> subst ho <;>
        simp [val, betaScaledUpdate, Obj.setAll, Obj.set]
    have hsup : ∀ (kw : Kw) (o : Obj), construct .betaScaled kw = .ok o →
        (if updates kw .betaScaled = true then updateSupport (fun k => (kw k).getD 0) o (paramSupport kw (initSupport kw .betaScaled) .betaScaled) .betaScaled
          else paramSupport kw (initSupport kw .betaScaled) .betaScaled) = ((((kw "lower").getD 0 : ℝ) : EReal), (((kw "upper").getD 1 : ℝ) : EReal)) := by
      intro kw o ho
      obtain ⟨h1, h2⟩ := hval kw o ho
      simp only [updateSupport, paramSupport, initSupport, h1, h2, ite_self]
    simp only [hsup kw o ho, hsup kw' o' ho', hl, hu]
    exact ⟨le_rfl, le_rfl⟩
  | simple t =>
    have e : o = simpleParam (simpleFam t) kw blank := by
      simp only [construct, parametrize] at ho; injection ho with ho; exact ho.symm
    have e' : o' = simpleParam (simpleFam t) kw' blank := by
      simp only [construct, parametrize] at ho'; injection ho' with ho'; exact ho'.symm
    simp only
    cases hu : updates kw (.simple t) with
    | true =>
      have hsome : ∀ k ∈ (simpleFam t).args, kw k = kw' k := by
        intro k hkm
        have hall : allNotNone ((simpleFam t).args.map kw) = true := hu
        unfold allNotNone at hall
        rw [List.all_eq_true] at hall
        obtain ⟨y, hy⟩ := Option.isSome_iff_exists.1 (hall _ (List.mem_map.2 ⟨k, hkm, rfl⟩))
        rw [hy, hk k y hy]
      have hu' : updates kw' (.simple t) = true := by
        rw [← hu]
        simp only [updates]
        rw [List.map_congr_left hsome]
      have eo : o' = o := by rw [e, e', simple_congr t hsome]
      rw [hu', eo]
      have : (updateSupport (fun k => (kw' k).getD 0) o (paramSupport kw' (initSupport kw' (.simple t)) (.simple t)) (.simple t)) =
          updateSupport (fun k => (kw k).getD 0) o (paramSupport kw (initSupport kw (.simple t)) (.simple t)) (.simple t) := by
        cases t <;> simp only [varies, Bool.false_eq_true] at hv
        case hyperGeometric =>
          simp only [updateSupport]
          rw [hsome "n" (by simp [simpleFam]), hsome "N" (by simp [simpleFam]), hsome "k" (by simp [simpleFam])]
        all_goals rfl
      simp only [if_true]
      rw [this]
      exact ⟨le_rfl, le_rfl⟩
    | false =>
      simp only [Bool.false_eq_true, if_false]
      cases hu' : updates kw' (.simple t) with
      | false => simpa using param_mono hk t
      | true =>
        simp only [if_true]
        obtain ⟨v1, v2⟩ := simple_val t kw' blank hu'
        rw [← e'] at v1 v2
        have low : ∀ (l : ℝ), kw' "lower" = some l → (((kw "lower").map fun x : ℝ => (x : EReal)).getD ⊥) ≤ l := by
          intro l hl
          cases hkl : kw "lower" with
          | none => simp
          | some y => have := hk _ _ hkl; rw [hl] at this; injection this with this; subst this; simp
        have upp : ∀ (l : ℝ), kw' "upper" = some l → (l : EReal) ≤ (((kw "upper").map fun x : ℝ => (x : EReal)).getD ⊤) := by
          intro l hl
          cases hkl : kw "upper" with
          | none => simp
          | some y => have := hk _ _ hkl; rw [hl] at this; injection this with this; subst this; simp
        cases t <;> simp only [varies, Bool.false_eq_true] at hv
        case betaBinomial => exact ⟨le_rfl, le_top⟩
        case binomial => exact ⟨le_rfl, le_top⟩
        case triangular => exact ⟨bot_le, le_top⟩
        case hyperGeometric => exact ⟨by simp [updateSupport, paramSupport, initSupport], le_top⟩
        case ziBinomial =>
          refine ⟨?_, le_top⟩
          simp only [updateSupport]
          split <;> exact le_rfl
        case pareto =>
          refine ⟨?_, le_top⟩
          have hall : allNotNone ((simpleFam .pareto).args.map kw') = true := hu'
          simp only [simpleFam, allNotNone, List.map_cons, List.map_nil, List.all_cons, List.all_nil, Bool.and_true, Bool.and_eq_true] at hall
          obtain ⟨a, ha⟩ := Option.isSome_iff_exists.1 hall.1
          obtain ⟨b, hb⟩ := Option.isSome_iff_exists.1 hall.2
          have : val o' "m" = b := by
            rw [e']
            simp [val, simpleParam, simpleFam, simpleUpdate, allNotNone, ha, hb, Obj.setAll, Obj.set]
          simp only [updateSupport, paramSupport, initSupport, this]
          exact_mod_cast hp rfl b hb
        case uniform => exact ⟨low _ (v1 (Or.inl rfl)).1, upp _ (v1 (Or.inl rfl)).2⟩
        case truncatedNormal => exact ⟨low _ (v1 (Or.inr rfl)).1, upp _ (v1 (Or.inr rfl)).2⟩
        case discreteUniform =>
          obtain ⟨l, u, hl, hu2, h1, h2⟩ := v2 rfl
          obtain ⟨m, rfl⟩ := hd rfl _ _ hl
          obtain ⟨n, rfl⟩ := hd rfl _ _ hu2
          simp only [Int.floor_intCast, Int.ceil_intCast] at h1 h2
          simp only [updateSupport, paramSupport, h1, h2]
          exact ⟨low _ hl, upp _ hu2⟩
  | _ => simp [varies] at hv

/-- a normal truncated below, and then above -/
example : ∃ s s', sConstruct (.simple .truncatedNormal) (kwOf [("lower", 0)]) = .ok s ∧
    sConstruct (.simple .truncatedNormal) (kwOf [("mu", 1), ("sigma", 2), ("lower", 0), ("upper", 3)]) = .ok s' ∧
    (∀ k x, kwOf [("lower", 0)] k = some x → kwOf [("mu", 1), ("sigma", 2), ("lower", 0), ("upper", 3)] k = some x) ∧
    s.support = (((0 : ℝ) : EReal), ⊤) ∧ s'.support = (((0 : ℝ) : EReal), ((3 : ℝ) : EReal)) := by
  refine ⟨_, _, rfl, rfl, ?_, ?_, ?_⟩
  · intro k x
    by_cases h : k = "lower"
    · subst h; simp [kwOf, List.lookup]
    · simp [kwOf, List.lookup, beq_eq_false_iff_ne.2 h]
  · simp [updates, simpleFam, allNotNone, kwOf, List.lookup, paramSupport]
  · simp [updates, simpleFam, allNotNone, kwOf, List.lookup, updateSupport, simpleParam, simpleUpdate, val, Obj.setAll, Obj.set]

/-- With a bound that is not whole, completing a DiscreteUniform widens its support. -/
theorem discreteuniform_widens : ∃ s s', sConstruct (.simple .discreteUniform) (kwOf [("lower", 1 / 2)]) = .ok s ∧
    sConstruct (.simple .discreteUniform) (kwOf [("lower", 1 / 2), ("upper", 3)]) = .ok s' ∧
    s.support.1 = ((1 / 2 : ℝ) : EReal) ∧ s'.support.1 = ((0 : ℝ) : EReal) ∧ ¬ Within s'.support s.support := by
  have f1 : ⌊(2 : ℝ)⁻¹⌋ = 0 := by norm_num
  have h1 : (paramSupport (kwOf [("lower", 1 / 2)]) (0, ⊤) (.simple .discreteUniform)).1 = ((1 / 2 : ℝ) : EReal) := by
    simp [paramSupport, kwOf, List.lookup]
  have h2 : (updateSupport (fun _ => 0) (simpleParam (simpleFam .discreteUniform) (kwOf [("lower", 1 / 2), ("upper", 3)]) blank) (0, ⊤)
      (.simple .discreteUniform)).1 = ((0 : ℝ) : EReal) := by
    simp [updateSupport, simpleParam, simpleFam, simpleUpdate, allNotNone, kwOf, List.lookup, val, Obj.setAll, Obj.set, f1]
  refine ⟨_, _, rfl, rfl, h1, h2, ?_⟩
  rintro ⟨h, -⟩
  have := EReal.coe_le_coe_iff.1 (h1.symm.le.trans (h.trans h2.le))
  norm_num at this

end Verif.Props
