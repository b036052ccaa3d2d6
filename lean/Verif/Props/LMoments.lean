import Verif.Spec.LMoments
import Verif.Props.Delegate

/-!
# C128: moments and lmoments report the figures asked for
-/

namespace Verif.Props
open Verif Verif.Delegate Verif.Param Verif.Spec Verif.LMoments

private theorem moments_cons {β : Type} (d : Methods β) (c : Char) (cs : List Char) :
    moments d (c :: cs) = match momentNamed.lookup c with
      | none => .error .valueError
      | some m => inherited d m >>= fun v => moments d cs >>= fun vs => .ok (v :: vs) := by
  by_cases h1 : c = 'm'
  · subst h1; rfl
  by_cases h2 : c = 'v'
  · subst h2; rfl
  by_cases h3 : c = 'd'
  · subst h3; rfl
  by_cases h4 : c = 's'
  · subst h4; rfl
  by_cases h5 : c = 'k'
  · subst h5; rfl
  have : momentNamed.lookup c = none := by simp [momentNamed, List.lookup, h1, h2, h3, h4, h5, beq_eq_false_iff_ne.2]
  rw [this]
  simp [moments, h1, h2, h3, h4, h5]

private theorem lmoments_cons {β : Type} (d : Methods β) (c : Char) (cs : List Char) :
    lmoments d (c :: cs) = match lmomentNamed.lookup c with
      | none => .error .valueError
      | some m => inherited d m >>= fun v => lmoments d cs >>= fun vs => .ok (v :: vs) := by
  by_cases h1 : c = '1'
  · subst h1; rfl
  by_cases h2 : c = '2'
  · subst h2; rfl
  by_cases h3 : c = '3'
  · subst h3; rfl
  by_cases h4 : c = '4'
  · subst h4; rfl
  have : lmomentNamed.lookup c = none := by simp [lmomentNamed, List.lookup, h1, h2, h3, h4, beq_eq_false_iff_ne.2]
  rw [this]
  simp [lmoments, h1, h2, h3, h4]

/-- a report: `.ok` with one figure for each letter, in their order, exactly if every letter names a method that returns -/
private theorem report {β : Type} (f : List Char → Except Err (List β)) (d : Methods β) (tab : List (Char × Meth))
    (h0 : f [] = .ok [])
    (hf : ∀ c cs, f (c :: cs) = match tab.lookup c with
      | none => .error .valueError
      | some m => inherited d m >>= fun v => f cs >>= fun vs => .ok (v :: vs)) (types : List Char) (vs : List β) :
    f types = .ok vs ↔
      List.Forall₂ (fun c v => ∃ m, tab.lookup c = some m ∧ inherited d m = .ok v) types vs := by
  induction types generalizing vs with
  | nil => simp [h0, eq_comm]
  | cons c cs ih =>
    rw [hf]
    constructor
    · intro h
      cases hl : tab.lookup c with
      | none => simp [hl] at h
      | some m =>
        cases hi : inherited d m with
        | error e => rw [hl] at h; simp only [hi] at h; exact absurd h (by rintro ⟨⟩)
        | ok v =>
          cases hr : f cs with
          | error e => rw [hl] at h; simp only [hi, hr] at h; exact absurd h (by rintro ⟨⟩)
          | ok ws =>
            rw [hl] at h; simp only [hi, hr, Except.ok_bind', Except.ok.injEq] at h
            subst h
            exact .cons ⟨m, hl, hi⟩ ((ih ws).1 hr)
    · intro h
      cases h with
      | cons h1 h2 =>
        obtain ⟨m, hl, hi⟩ := h1
        simp only [hl, hi, (ih _).2 h2, Except.ok_bind']

private theorem inherited_ok {β : Type} (d : Methods β) (m : Meth) (v : β) : inherited d m = .ok v ↔ d m = some (.ok v) := by
  unfold inherited
  cases d m with
  | none => simp
  | some r => simp

private theorem lookup_mem (tab : List (Char × Meth)) (hn : (tab.map (·.1)).Nodup) (c : Char) (m : Meth) :
    tab.lookup c = some m ↔ (c, m) ∈ tab := by
  induction tab with
  | nil => simp
  | cons p ps ih =>
    obtain ⟨a, n⟩ := p
    simp only [List.map_cons, List.nodup_cons] at hn
    rw [List.lookup_cons]
    by_cases h : c = a
    · subst h
      simp only [beq_self_eq_true, Option.some.injEq, List.mem_cons, Prod.mk.injEq, true_and]
      refine ⟨fun h => .inl h.symm, fun h => ?_⟩
      rcases h with h | h
      · exact h.symm
      · exact absurd (List.mem_map.2 ⟨_, h, rfl⟩) hn.1
    · simp [beq_eq_false_iff_ne.2 h, ih hn.2, h]

/-- **C128**: `moments` returns exactly if every letter is one of the documented ones and the class of the object has that
moment, and then gives one figure for each letter, in the order of the letters. -/
theorem moments_report {β : Type} (d : Methods β) (types : List Char) (vs : List β) :
    moments d types = .ok vs ↔
      List.Forall₂ (fun c v => ∃ m, (c, m) ∈ momentNamed ∧ d m = some (.ok v)) types vs := by
  rw [report (moments d) d momentNamed rfl (moments_cons d)]
  simp only [inherited_ok, lookup_mem momentNamed (by decide)]

/-- **C128**: the same for `lmoments`. -/
theorem lmoments_report {β : Type} (d : Methods β) (types : List Char) (vs : List β) :
    lmoments d types = .ok vs ↔
      List.Forall₂ (fun c v => ∃ m, (c, m) ∈ lmomentNamed ∧ d m = some (.ok v)) types vs := by
  rw [report (lmoments d) d lmomentNamed rfl (lmoments_cons d)]
  simp only [inherited_ok, lookup_mem lmomentNamed (by decide)]

private theorem plain_get {α : Type} {w : Wiring} (hw : w ∈ wirings) (user attr : Id → α) (m : Meth)
    (hm : ∃ r ∈ w.rows, r.meth = m) :
    plain w user attr m = some (.ok (theCall w.family m user ((signature w.family).map attr))) := by
  unfold plain
  rw [if_pos (by simpa using hm), delegates hw hm]

/-- **C128**: for every family with scalar parameters and every request with letters of the documented ones, `moments` makes
the calls of the library the letters stand for, with the parameters of the object, in the order of the letters. -/
theorem moments_every_family {α : Type} {w : Wiring} (hw : w ∈ wirings) (user attr : Id → α) (ms : List (Char × Meth))
    (hms : ∀ p ∈ ms, p ∈ momentNamed) :
    moments (plain w user attr) (ms.map (·.1)) =
      .ok (ms.map fun p => theCall w.family p.2 user ((signature w.family).map attr)) := by
  rw [moments_report, List.forall₂_map_left_iff, List.forall₂_map_right_iff, List.forall₂_same]
  intro p hp
  refine ⟨p.2, hms p hp, plain_get hw user attr p.2 (methods_defined w hw p.2 ?_)⟩
  have := hms p hp
  simp only [momentNamed, List.mem_cons, List.not_mem_nil, or_false] at this
  rcases this with rfl | rfl | rfl | rfl | rfl <;> simp

/-- **C128**: the same for `lmoments`, for every family but DiscreteWeibull. -/
theorem lmoments_families_partial {α : Type} {w : Wiring} (hw : w ∈ wirings) (hf : w.family ≠ .simple .discreteWeibull)
    (user attr : Id → α) (ms : List (Char × Meth)) (hms : ∀ p ∈ ms, p ∈ lmomentNamed) :
    lmoments (plain w user attr) (ms.map (·.1)) =
      .ok (ms.map fun p => theCall w.family p.2 user ((signature w.family).map attr)) := by
  rw [lmoments_report, List.forall₂_map_left_iff, List.forall₂_map_right_iff, List.forall₂_same]
  intro p hp
  refine ⟨p.2, hms p hp, plain_get hw user attr p.2 ?_⟩
  by_contra hc
  refine hf (((methods_missing w hw).2.1 p.2 ?_).1 hc)
  have := hms p hp
  simp only [lmomentNamed, List.mem_cons, List.not_mem_nil, or_false] at this
  rcases this with rfl | rfl | rfl | rfl <;> simp

/-- **C128**: DiscreteWeibull has no L-moments: every request but the empty one raises an error. -/
theorem lmoments_discrete_weibull {α : Type} {w : Wiring} (hw : w ∈ wirings) (hf : w.family = .simple .discreteWeibull)
    (user attr : Id → α) (c : Char) (cs : List Char) :
    lmoments (plain w user attr) (c :: cs) =
      .error (if c ∈ lmomentNamed.map (·.1) then .runtimeError else .valueError) := by
  rw [lmoments_cons]
  cases hl : lmomentNamed.lookup c with
  | none =>
    have : c ∉ lmomentNamed.map (·.1) := by
      intro hc
      obtain ⟨⟨a, m⟩, hm, rfl⟩ := List.mem_map.1 hc
      rw [(lookup_mem lmomentNamed (by decide) a m).2 hm] at hl
      simp at hl
    rw [if_neg this]
  | some m =>
    have hm := (lookup_mem lmomentNamed (by decide) c m).1 hl
    rw [if_pos (List.mem_map.2 ⟨_, hm, rfl⟩)]
    have hmem : m ∈ [Meth.lmoment1, .lmoment2, .lmoment3, .lmoment4] := by
      simp only [lmomentNamed, List.mem_cons, List.not_mem_nil, or_false, Prod.mk.injEq] at hm
      rcases hm with ⟨-, rfl⟩ | ⟨-, rfl⟩ | ⟨-, rfl⟩ | ⟨-, rfl⟩ <;> simp
    have hno := ((methods_missing w hw).2.1 m hmem).2 hf
    have : inherited (plain w user attr) m = .error .runtimeError := by
      unfold inherited plain
      rw [if_neg (by simpa using hno)]
    simp only [this]
    rfl

/-- **C128**: of the modified and the categorical distributions every one has the moments asked for, but a hurdle
distribution only mean, variance and standard deviation.  (The values are those the methods return.) -/
theorem moments_modified {β : Type} (k : Other) (v : Meth → β) (ms : List (Char × Meth)) (hms : ∀ p ∈ ms, p ∈ momentNamed) :
    (moments (other k fun m => .ok (v m)) (ms.map (·.1)) = .ok (ms.map fun p => v p.2) ↔
      (k = .hurdle → ∀ p ∈ ms, p.2 ≠ .skewness ∧ p.2 ≠ .kurtosis)) ∧
    ((k = .hurdle ∧ ∃ p ∈ ms, p.2 = .skewness ∨ p.2 = .kurtosis) →
      moments (other k fun m => .ok (v m)) (ms.map (·.1)) = .error .runtimeError) := by
  constructor
  · rw [moments_report, List.forall₂_map_left_iff, List.forall₂_map_right_iff, List.forall₂_same]
    constructor
    · rintro h rfl p hp
      obtain ⟨m, hm, hv⟩ := h p hp
      have hpn := hms p hp
      have : m = p.2 := by
        have h1 := (lookup_mem momentNamed (by decide) p.1 m).2 hm
        have h2 := (lookup_mem momentNamed (by decide) p.1 p.2).2 hpn
        rw [h1] at h2; exact Option.some.inj h2
      subst this
      unfold other at hv
      split_ifs at hv with hd
      simp only [Other.defines, List.mem_cons, List.not_mem_nil, or_false] at hd
      rcases hd with h | h | h | h | h <;> rw [h] <;> simp
    · intro h p hp
      refine ⟨p.2, hms p hp, ?_⟩
      have hpn := hms p hp
      unfold other
      rw [if_pos]
      simp only [momentNamed, List.mem_cons, List.not_mem_nil, or_false] at hpn
      cases k <;> rcases hpn with rfl | rfl | rfl | rfl | rfl <;>
        first
        | simp [Other.defines]; done
        | (have := h rfl _ hp; simp at this)
  · rintro ⟨rfl, q, hq, hsk⟩
    induction ms with
    | nil => simp at hq
    | cons p ps ih =>
      have hp := hms p (by simp)
      rw [List.map_cons, moments_cons, (lookup_mem momentNamed (by decide) p.1 p.2).2 hp]
      by_cases hpk : p.2 = .skewness ∨ p.2 = .kurtosis
      · have : inherited (other .hurdle fun m => Except.ok (v m)) p.2 = .error .runtimeError := by
          unfold inherited other
          rcases hpk with h | h <;> rw [h] <;> simp [Other.defines]
        simp only [this]; rfl
      · have hq' : q ∈ ps := by
          rcases List.mem_cons.1 hq with rfl | h
          · exact absurd hsk hpk
          · exact h
        have : inherited (other .hurdle fun m => Except.ok (v m)) p.2 = .ok (v p.2) := by
          rw [inherited_ok]
          unfold other
          rw [if_pos]
          simp only [momentNamed, List.mem_cons, List.not_mem_nil, or_false] at hp
          rcases hp with rfl | rfl | rfl | rfl | rfl <;> simp_all [Other.defines]
        simp only [this, Except.ok_bind', ih (fun p hp => hms p (by simp [hp])) hq']
        rfl

/-- **C128**: none of these has L-moments. -/
theorem lmoments_modified {β : Type} (k : Other) (val : Meth → Except Err β) (types : List Char) (vs : List β) :
    lmoments (other k val) types = .ok vs ↔ types = [] ∧ vs = [] := by
  rw [lmoments_report]
  constructor
  · intro h
    cases h with
    | nil => simp
    | cons h1 _ =>
      obtain ⟨m, hm, hv⟩ := h1
      unfold other at hv
      split_ifs at hv with hd
      simp only [lmomentNamed, List.mem_cons, List.not_mem_nil, or_false, Prod.mk.injEq] at hm
      rcases hm with ⟨-, rfl⟩ | ⟨-, rfl⟩ | ⟨-, rfl⟩ | ⟨-, rfl⟩ <;> cases k <;> simp [Other.defines] at hd
  · rintro ⟨rfl, rfl⟩
    exact .nil

/-- **C128**: the documentation of `lmoments` offers 'd' for the standard deviation; it is refused wherever it stands. -/
theorem lmoments_d_refused {β : Type} (d : Methods β) (types : List Char) (h : 'd' ∈ types) :
    ∃ e, lmoments d types = .error e := by
  cases hr : lmoments d types with
  | error e => exact ⟨e, rfl⟩
  | ok vs =>
    have := (lmoments_report d types vs).1 hr
    exfalso
    clear hr
    induction this with
    | nil => simp at h
    | cons h1 _ ih =>
      rcases List.mem_cons.1 h with rfl | h
      · obtain ⟨m, hm, -⟩ := h1
        simp [lmomentNamed] at hm
      · exact ih h

/-! The hypotheses are met: Gamma(alpha=2, beta=3). -/

example : lmoments (plain wGamma (fun _ => (0 : ℚ)) fun i => if i = .alpha then 2 else 3) ['2', '1'] =
    .ok [⟨"gamma", .lmoment2, [2, 3], []⟩, ⟨"gamma", .lmoment1, [2, 3], []⟩] :=
  lmoments_families_partial (w := wGamma) (by simp [wirings]) (by decide) _ _ [('2', .lmoment2), ('1', .lmoment1)]
    (by simp [lmomentNamed])

example : moments (plain wGamma (fun _ => (0 : ℚ)) fun i => if i = .alpha then 2 else 3) ['d', 'm'] =
    .ok [⟨"gamma", .std, [2, 3], []⟩, ⟨"gamma", .mean, [2, 3], []⟩] :=
  moments_every_family (w := wGamma) (by simp [wirings]) _ _ [('d', .std), ('m', .mean)] (by simp [momentNamed])

/-- the default request, on a hurdle distribution -/
example (v : Meth → ℚ) : moments (other .hurdle fun m => .ok (v m)) ['m', 'v', 's', 'k'] = .error .runtimeError :=
  (moments_modified .hurdle v [('m', .mean), ('v', .var), ('s', .skewness), ('k', .kurtosis)] (by simp [momentNamed])).2
    ⟨rfl, _, by simp; exact .inr (.inr (.inl rfl)), .inl rfl⟩

example : ∃ w ∈ wirings, w.family = .simple .discreteWeibull := ⟨wDiscreteWeibull, by simp [wirings], rfl⟩

end Verif.Props
