import Verif.Lemmas.MlConvex
import Mathlib.Tactic

/-!
# The likelihood of Cauchy, HalfCauchy and StudentT
-/

namespace Verif.Ml
open Set Filter Topology

/-- up to the factor `π`, one over the density of Cauchy -/
noncomputable def hyp (p : ℝ × ℝ) (x : ℝ) : ℝ := ((x - p.1) ^ 2 + p.2 ^ 2) / p.2

/-- minus the log-likelihood, up to a constant -/
noncomputable def hypObj (s : List ℝ) (p : ℝ × ℝ) : ℝ := (s.map fun x => Real.log (hyp p x)).sum

theorem hyp_pos {p : ℝ × ℝ} (hp : 0 < p.2) (x : ℝ) : 0 < hyp p x := by
  unfold hyp
  positivity

theorem hyp_ge {p : ℝ × ℝ} (hp : 0 < p.2) (x : ℝ) : p.2 ≤ hyp p x := by
  unfold hyp
  rw [le_div_iff₀ hp]
  nlinarith [sq_nonneg (x - p.1)]

theorem hyp_ge' {p : ℝ × ℝ} (hp : 0 < p.2) (x : ℝ) : (x - p.1) ^ 2 / p.2 ≤ hyp p x := by
  unfold hyp
  gcongr
  nlinarith [sq_nonneg p.2]

theorem hypObj_cont (s : List ℝ) : ContinuousOn (hypObj s) {p | 0 < p.2} := by
  unfold hypObj
  induction s with
  | nil => simpa using continuousOn_const
  | cons a t ih =>
    simp only [List.map_cons, List.sum_cons]
    refine ContinuousOn.add (ContinuousOn.log ?_ fun p hp => (hyp_pos hp a).ne') ih
    unfold hyp
    exact ContinuousOn.div (by fun_prop) continuousOn_snd fun p hp => ne_of_gt hp

/-- the middle of two points of the upper half plane -/
noncomputable def midp (p q : ℝ × ℝ) : ℝ × ℝ :=
  ((p.1 * q.2 + q.1 * p.2) / (p.2 + q.2), √(p.2 * q.2 * ((p.1 - q.1) ^ 2 + (p.2 + q.2) ^ 2)) / (p.2 + q.2))

/-- where it vanishes, `hyp` is not strictly convex between the two points -/
def flat (p q : ℝ × ℝ) (x : ℝ) : ℝ := ((x - p.1) ^ 2 + p.2 ^ 2) * (x - q.1) - ((x - q.1) ^ 2 + q.2 ^ 2) * (x - p.1)

theorem midp_pos {p q : ℝ × ℝ} (hp : 0 < p.2) (hq : 0 < q.2) : 0 < (midp p q).2 := by
  unfold midp
  refine div_pos (Real.sqrt_pos.2 ?_) (by linarith)
  have : 0 < (p.2 + q.2) ^ 2 := by positivity
  have := sq_nonneg (p.1 - q.1)
  positivity

theorem hyp_mid {p q : ℝ × ℝ} (hp : 0 < p.2) (hq : 0 < q.2) (x : ℝ) :
    hyp p x * hyp q x - hyp (midp p q) x ^ 2 =
      flat p q x ^ 2 / (p.2 * q.2 * ((p.1 - q.1) ^ 2 + (p.2 + q.2) ^ 2)) := by
  obtain ⟨m1, s1⟩ := p
  obtain ⟨m2, s2⟩ := q
  simp only at hp hq
  have hN : 0 < (m1 - m2) ^ 2 + (s1 + s2) ^ 2 := by positivity
  have hr2 : (midp (m1, s1) (m2, s2)).2 ^ 2 = s1 * s2 * ((m1 - m2) ^ 2 + (s1 + s2) ^ 2) / (s1 + s2) ^ 2 := by
    simp only [midp]
    rw [div_pow, Real.sq_sqrt (by positivity)]
  have hsq : hyp (midp (m1, s1) (m2, s2)) x ^ 2 =
      ((x - (midp (m1, s1) (m2, s2)).1) ^ 2 + (midp (m1, s1) (m2, s2)).2 ^ 2) ^ 2 / (midp (m1, s1) (m2, s2)).2 ^ 2 := by
    unfold hyp
    rw [div_pow]
  rw [hsq, hr2]
  simp only [midp, hyp, flat]
  field_simp
  ring

theorem hyp_mid_le {p q : ℝ × ℝ} (hp : 0 < p.2) (hq : 0 < q.2) (x : ℝ) :
    Real.log (hyp (midp p q) x) ≤ 1 / 2 * Real.log (hyp p x) + 1 / 2 * Real.log (hyp q x) := by
  have h := hyp_mid hp hq x
  have hr := hyp_pos (midp_pos hp hq) x
  have h0 : 0 ≤ flat p q x ^ 2 / (p.2 * q.2 * ((p.1 - q.1) ^ 2 + (p.2 + q.2) ^ 2)) := by positivity
  have h1 : hyp (midp p q) x ^ 2 ≤ hyp p x * hyp q x := by linarith
  have h2 := Real.log_le_log (by positivity) h1
  rw [Real.log_pow, Real.log_mul (hyp_pos hp x).ne' (hyp_pos hq x).ne'] at h2
  push_cast at h2
  linarith

theorem hyp_mid_lt {p q : ℝ × ℝ} (hp : 0 < p.2) (hq : 0 < q.2) {x : ℝ} (hx : flat p q x ≠ 0) :
    Real.log (hyp (midp p q) x) < 1 / 2 * Real.log (hyp p x) + 1 / 2 * Real.log (hyp q x) := by
  have h := hyp_mid hp hq x
  have hr := hyp_pos (midp_pos hp hq) x
  have h0 : 0 < flat p q x ^ 2 / (p.2 * q.2 * ((p.1 - q.1) ^ 2 + (p.2 + q.2) ^ 2)) := by
    have : 0 < flat p q x ^ 2 := by positivity
    positivity
  have h1 : hyp (midp p q) x ^ 2 < hyp p x * hyp q x := by linarith
  have h2 := Real.log_lt_log (by positivity) h1
  rw [Real.log_pow, Real.log_mul (hyp_pos hp x).ne' (hyp_pos hq x).ne'] at h2
  push_cast at h2
  linarith

theorem half_sum (f g : ℝ → ℝ) (l : List ℝ) :
    (l.map fun x => 1 / 2 * f x + 1 / 2 * g x).sum = 1 / 2 * (l.map f).sum + 1 / 2 * (l.map g).sum := by
  induction l with
  | nil => simp
  | cons a t ih =>
    simp only [List.map_cons, List.sum_cons] at ih ⊢
    rw [ih]
    ring

/-- three different values leave at most one minimum -/
theorem hyp_unique {s : List ℝ} {x y z : ℝ} (hx : x ∈ s) (hy : y ∈ s) (hz : z ∈ s) (hxy : x ≠ y) (hxz : x ≠ z) (hyz : y ≠ z)
    {p q : ℝ × ℝ} (hp : 0 < p.2) (hq : 0 < q.2) (hpm : ∀ r : ℝ × ℝ, 0 < r.2 → hypObj s p ≤ hypObj s r)
    (hqm : ∀ r : ℝ × ℝ, 0 < r.2 → hypObj s q ≤ hypObj s r) : p = q := by
  have he : hypObj s p = hypObj s q := le_antisymm (hpm q hq) (hqm p hp)
  have hflat : ∀ w ∈ s, flat p q w = 0 := by
    intro w hw
    by_contra hne
    have h1 := sum_lt_map (f := fun x => Real.log (hyp (midp p q) x)) (fun x _ => hyp_mid_le hp hq x) hw
      (hyp_mid_lt hp hq hne)
    rw [half_sum] at h1
    have h2 := hpm (midp p q) (midp_pos hp hq)
    unfold hypObj at h2 he
    linarith
  have h1 := hflat x hx
  have h2 := hflat y hy
  have h3 := hflat z hz
  unfold flat at h1 h2 h3
  have e1 : (x - y) * ((q.1 - p.1) * (x + y) - (q.1 ^ 2 - p.1 ^ 2) + p.2 ^ 2 - q.2 ^ 2) = 0 := by linear_combination h1 - h2
  have e2 : (x - z) * ((q.1 - p.1) * (x + z) - (q.1 ^ 2 - p.1 ^ 2) + p.2 ^ 2 - q.2 ^ 2) = 0 := by linear_combination h1 - h3
  have e1' := (mul_eq_zero.1 e1).resolve_left (sub_ne_zero.2 hxy)
  have e2' := (mul_eq_zero.1 e2).resolve_left (sub_ne_zero.2 hxz)
  have e3 : (q.1 - p.1) * (y - z) = 0 := by linear_combination e1' - e2'
  have hm : p.1 = q.1 := by
    have := (mul_eq_zero.1 e3).resolve_right (sub_ne_zero.2 hyz)
    linarith
  rw [hm] at e1'
  have e4 : (p.2 - q.2) * (p.2 + q.2) = 0 := by linear_combination e1'
  have hs := (mul_eq_zero.1 e4).resolve_right (by linarith)
  exact Prod.ext hm (sub_eq_zero.1 hs)

theorem sum_count (c A B : ℝ) (s : List ℝ) :
    (s.map fun x => if x = c then A else B).sum = s.count c * A + ((s.length : ℝ) - s.count c) * B := by
  induction s with
  | nil => simp
  | cons a t ih =>
    simp only [List.map_cons, List.sum_cons, List.length_cons, ih]
    by_cases h : a = c
    · subst h
      rw [if_pos rfl, List.count_cons_self]
      push_cast
      ring
    · rw [if_neg h, List.count_cons_of_ne h]
      push_cast
      ring

private theorem pos_lower (l : List ℝ) (h : ∀ t ∈ l, 0 < t) : ∃ δ, 0 < δ ∧ ∀ t ∈ l, δ ≤ t := by
  induction l with
  | nil => exact ⟨1, one_pos, by simp⟩
  | cons a t ih =>
    obtain ⟨δ, h1, h2⟩ := ih fun x hx => h x (List.mem_cons_of_mem _ hx)
    refine ⟨min a δ, lt_min (h a List.mem_cons_self) h1, ?_⟩
    intro x hx
    rcases List.mem_cons.1 hx with rfl | hx
    · exact min_le_left _ _
    · exact (min_le_right _ _).trans (h2 x hx)

theorem gap (s : List ℝ) : ∃ δ, 0 < δ ∧ ∀ x ∈ s, ∀ y ∈ s, x ≠ y → 2 * δ ≤ |x - y| := by
  obtain ⟨δ, h1, h2⟩ := pos_lower (((s.product s).filter fun p => p.1 ≠ p.2).map fun p => |p.1 - p.2| / 2) (by
    intro t ht
    obtain ⟨p, hp, rfl⟩ := List.mem_map.1 ht
    have := (List.mem_filter.1 hp).2
    simp only [ne_eq, decide_not, Bool.not_eq_eq_eq_not, Bool.not_true, decide_eq_false_iff_not] at this
    have := abs_pos.2 (sub_ne_zero.2 this)
    positivity)
  refine ⟨δ, h1, fun x hx y hy hxy => ?_⟩
  have := h2 (|x - y| / 2) (List.mem_map.2 ⟨(x, y), List.mem_filter.2 ⟨List.pair_mem_product.2 ⟨hx, hy⟩, by simpa using hxy⟩, rfl⟩)
  linarith

/-- small scales are unlikely if every value is rarer than one half -/
theorem hyp_small (s : List ℝ) (hs : s ≠ []) (hc : ∀ c ∈ s, 2 * s.count c < s.length) {δ : ℝ} (hδ : 0 < δ)
    (hg : ∀ x ∈ s, ∀ y ∈ s, x ≠ y → 2 * δ ≤ |x - y|) {p : ℝ × ℝ} (hp : 0 < p.2) (hp1 : p.2 < 1) :
    -Real.log p.2 - s.length * |Real.log (δ ^ 2)| ≤ hypObj s p := by
  have hl : 0 < -Real.log p.2 := by
    have := Real.log_neg hp hp1
    linarith
  have hn : (1 : ℝ) ≤ s.length := by exact_mod_cast List.length_pos_iff.2 hs
  have hfar : ∀ x, δ ≤ |x - p.1| → Real.log (δ ^ 2) - Real.log p.2 ≤ Real.log (hyp p x) := by
    intro x hx
    rw [← Real.log_div (by positivity) hp.ne']
    refine Real.log_le_log (by positivity) ((?_ : _ ≤ (x - p.1) ^ 2 / p.2).trans (hyp_ge' hp x))
    rw [← sq_abs (x - p.1)]
    gcongr
  have habs : -|Real.log (δ ^ 2)| ≤ Real.log (δ ^ 2) := neg_abs_le _
  by_cases h : ∃ c ∈ s, |c - p.1| < δ
  · obtain ⟨c, hcs, hcl⟩ := h
    have h1 : (s.map fun x => if x = c then Real.log p.2 else Real.log (δ ^ 2) - Real.log p.2).sum ≤ hypObj s p := by
      refine sum_le_map fun x hx => ?_
      split_ifs with he
      · exact Real.log_le_log hp (hyp_ge hp x)
      · refine hfar x ?_
        have h2 := hg x hx c hcs he
        have h3 : |x - c| ≤ |x - p.1| + |c - p.1| := by
          have : x - c = (x - p.1) - (c - p.1) := by ring
          rw [this]
          exact abs_sub _ _
        linarith
    rw [sum_count] at h1
    have h2 : (2 : ℝ) * s.count c + 1 ≤ s.length := by exact_mod_cast hc c hcs
    have h3 : (0 : ℝ) ≤ s.count c := Nat.cast_nonneg _
    refine le_trans ?_ h1
    have h4 : (s.length - s.count c : ℝ) * -|Real.log (δ ^ 2)| ≤ (s.length - s.count c : ℝ) * Real.log (δ ^ 2) :=
      mul_le_mul_of_nonneg_left habs (by linarith)
    have h5 := abs_nonneg (Real.log (δ ^ 2))
    have h6 : -Real.log p.2 ≤ (s.length - 2 * s.count c : ℝ) * -Real.log p.2 := by nlinarith
    nlinarith
  · push Not at h
    have h1 : (s.map fun _ => Real.log (δ ^ 2) - Real.log p.2).sum ≤ hypObj s p :=
      sum_le_map fun x hx => hfar x (h x hx)
    rw [List.map_const', List.sum_replicate, nsmul_eq_mul] at h1
    refine le_trans ?_ h1
    have h4 : (s.length : ℝ) * -|Real.log (δ ^ 2)| ≤ (s.length : ℝ) * Real.log (δ ^ 2) :=
      mul_le_mul_of_nonneg_left habs (by linarith)
    nlinarith

theorem hyp_large (s : List ℝ) {p : ℝ × ℝ} (hp : 0 < p.2) : s.length * Real.log p.2 ≤ hypObj s p := by
  have h1 : (s.map fun _ => Real.log p.2).sum ≤ hypObj s p :=
    sum_le_map fun x _ => Real.log_le_log hp (hyp_ge hp x)
  rwa [List.map_const', List.sum_replicate, nsmul_eq_mul] at h1

theorem hyp_away (s : List ℝ) {x : ℝ} (hx : x ∈ s) {p : ℝ × ℝ} (hp : 0 < p.2) (hne : x ≠ p.1) :
    Real.log ((x - p.1) ^ 2) + (s.length - 2) * Real.log p.2 ≤ hypObj s p := by
  have h1 := le_sum_of_mem (l := s) (f := fun x => Real.log (hyp p x) - Real.log p.2) (fun x _ => sub_nonneg.2
    (Real.log_le_log hp (hyp_ge hp x))) hx
  have h2 : ∀ l : List ℝ, (l.map fun x => Real.log (hyp p x) - Real.log p.2).sum = (l.map fun x => Real.log (hyp p x)).sum -
      l.length * Real.log p.2 := by
    intro l
    induction l with
    | nil => simp
    | cons a t ih =>
      simp only [List.map_cons, List.sum_cons, List.length_cons, Nat.cast_add, Nat.cast_one] at ih ⊢
      rw [ih]
      ring
  rw [h2] at h1
  have hsq : 0 < (x - p.1) ^ 2 := by
    have := sub_ne_zero.2 hne
    positivity
  have h3 := Real.log_le_log (by positivity) (hyp_ge' hp x)
  rw [Real.log_div hsq.ne' hp.ne'] at h3
  unfold hypObj
  linarith

theorem hyp_exists (s : List ℝ) (hs : s ≠ []) (hc : ∀ c ∈ s, 2 * s.count c < s.length) :
    ∃ p : ℝ × ℝ, 0 < p.2 ∧ ∀ q : ℝ × ℝ, 0 < q.2 → hypObj s p ≤ hypObj s q := by
  obtain ⟨δ, hδ, hg⟩ := gap s
  obtain ⟨x, hx⟩ := List.exists_mem_of_ne_nil s hs
  have hn : (1 : ℝ) ≤ s.length := by exact_mod_cast List.length_pos_iff.2 hs
  set L := hypObj s (0, 1) with hL
  set D := |L| + s.length * |Real.log (δ ^ 2)| + 1 with hD
  have hD0 : 0 < D := by positivity
  set r := Real.exp (-D) with hr
  have hr0 : 0 < r := Real.exp_pos _
  have hr1 : r < 1 := by rw [hr, Real.exp_lt_one_iff]; linarith
  set R := Real.exp (|L| + 1) with hR
  have hR1 : 1 < R := by
    rw [hR, Real.one_lt_exp_iff]
    positivity
  have hsmall : ∀ p : ℝ × ℝ, 0 < p.2 → p.2 < r → L < hypObj s p := by
    intro p hp h
    have h1 := hyp_small s hs hc hδ hg hp (h.trans hr1)
    have h2 := Real.log_lt_log hp h
    rw [hr, Real.log_exp] at h2
    have := le_abs_self L
    linarith
  have hlarge : ∀ p : ℝ × ℝ, R < p.2 → L < hypObj s p := by
    intro p h
    have hp : 0 < p.2 := by linarith
    have h1 := hyp_large s hp
    have h2 := Real.log_lt_log (by linarith) h
    rw [hR, Real.log_exp] at h2
    have := le_abs_self L
    have := abs_nonneg L
    nlinarith
  -- far locations
  set E := |L| + s.length * D + s.length * (|L| + 1) + 2 * (|L| + 1) + 2 * D + 1 with hE
  set B := |x| + Real.exp E with hB
  have hfar : ∀ p : ℝ × ℝ, r ≤ p.2 → p.2 ≤ R → B < |p.1| → L < hypObj s p := by
    intro p h1 h2 h3
    have hp : 0 < p.2 := hr0.trans_le h1
    have hlo : -D ≤ Real.log p.2 := by
      have := Real.log_le_log hr0 h1
      rwa [hr, Real.log_exp] at this
    have hhi : Real.log p.2 ≤ |L| + 1 := by
      have := Real.log_le_log hp h2
      rwa [hR, Real.log_exp] at this
    have hdist : Real.exp E < |x - p.1| := by
      have : |p.1| ≤ |x - p.1| + |x| := by
        have h : p.1 = x - (x - p.1) := by ring
        calc |p.1| = |x - (x - p.1)| := by rw [← h]
          _ ≤ |x| + |x - p.1| := abs_sub _ _
          _ = _ := add_comm _ _
      linarith
    have hne : x ≠ p.1 := by
      intro h
      rw [h, sub_self, abs_zero] at hdist
      linarith [Real.exp_pos E]
    have h4 := hyp_away s hx hp hne
    have h5 : 2 * E < Real.log ((x - p.1) ^ 2) := by
      rw [← sq_abs, Real.log_pow]
      have := Real.log_lt_log (Real.exp_pos _) hdist
      rw [Real.log_exp] at this
      push_cast
      linarith
    have h6 : -(s.length * D) - 2 * (|L| + 1) ≤ (s.length - 2) * Real.log p.2 := by
      have : (s.length : ℝ) * -D ≤ s.length * Real.log p.2 := mul_le_mul_of_nonneg_left hlo (by linarith)
      nlinarith
    have h7 := le_abs_self L
    have h8 : 0 ≤ s.length * D := by positivity
    have h9 : 0 ≤ s.length * (|L| + 1) := by positivity
    have h10 : 0 ≤ |L| := abs_nonneg L
    linarith
  obtain ⟨p, hp, hm⟩ := exists_max (fun p => -hypObj s p) {p : ℝ × ℝ | 0 < p.2} (Icc (-B) B ×ˢ Icc r R) (0, 1)
    (by simp) (isCompact_Icc.prod isCompact_Icc) (fun p hp => hr0.trans_le hp.2.1)
    (((hypObj_cont s).neg).mono fun p hp => hr0.trans_le hp.2.1) (by
      intro p hp hout
      refine neg_lt_neg ?_
      by_contra hge
      have h1 : r ≤ p.2 := by
        by_contra h
        exact hge (hsmall p hp (not_le.1 h))
      have h2 : p.2 ≤ R := by
        by_contra h
        exact hge (hlarge p (not_le.1 h))
      have h3 : |p.1| ≤ B := by
        by_contra h
        exact hge (hfar p h1 h2 (not_le.1 h))
      exact hout ⟨abs_le.1 h3, ⟨h1, h2⟩⟩)
  exact ⟨p, hp, fun q hq => neg_le_neg_iff.1 (hm q hq)⟩

theorem three_values (s : List ℝ) (hs : s ≠ []) (hc : ∀ c ∈ s, 2 * s.count c < s.length) :
    ∃ x ∈ s, ∃ y ∈ s, ∃ z ∈ s, x ≠ y ∧ x ≠ z ∧ y ≠ z := by
  obtain ⟨x, hx⟩ := List.exists_mem_of_ne_nil s hs
  have h1 : ∃ y ∈ s, x ≠ y := by
    by_contra h
    push Not at h
    have : s.count x = s.length := List.count_eq_length.2 h
    have := hc x hx
    omega
  obtain ⟨y, hy, hxy⟩ := h1
  by_contra h
  push Not at h
  have h2 : ∀ l : List ℝ, (∀ z ∈ l, x = z ∨ y = z) → l.length ≤ l.count x + l.count y := by
    intro l
    induction l with
    | nil => simp
    | cons a t ih =>
      intro hl
      have := ih fun z hz => hl z (List.mem_cons_of_mem _ hz)
      rcases hl a List.mem_cons_self with rfl | rfl
      · rw [List.count_cons_self, List.count_cons_of_ne hxy, List.length_cons]
        omega
      · rw [List.count_cons_self, List.count_cons_of_ne (fun h => hxy h.symm), List.length_cons]
        omega
  have h3 := h2 s (fun z hz => by
    by_contra hcon
    push Not at hcon
    exact hcon.2 (h x hx y hy z hz hxy hcon.1))
  have := hc x hx
  have := hc y hy
  omega

/-- a value that is more frequent than one half makes the likelihood unbounded -/
theorem hyp_unbounded (s : List ℝ) {c : ℝ} (hc : s.length < 2 * s.count c) (M : ℝ) :
    ∃ p : ℝ × ℝ, 0 < p.2 ∧ hypObj s p < M := by
  obtain ⟨K, hK1, hK⟩ : ∃ K : ℝ, 1 ≤ K ∧ ∀ x ∈ s, (x - c) ^ 2 + 1 ≤ K := by
    clear hc
    induction s with
    | nil => exact ⟨1, le_rfl, by simp⟩
    | cons a t ih =>
      obtain ⟨K, h1, h2⟩ := ih
      refine ⟨max K ((a - c) ^ 2 + 1), h1.trans (le_max_left _ _), ?_⟩
      intro x hx
      rcases List.mem_cons.1 hx with rfl | hx
      · exact le_max_right _ _
      · exact (h2 x hx).trans (le_max_left _ _)
  have hKl : 0 ≤ Real.log K := Real.log_nonneg hK1
  have hle : ∀ σ, 0 < σ → σ < 1 → hypObj s (c, σ) ≤ Real.log σ + s.length * Real.log K := by
    intro σ hσ hσ1
    have hlσ := Real.log_neg hσ hσ1
    have h1 : hypObj s (c, σ) ≤ (s.map fun x => if x = c then Real.log σ else Real.log K - Real.log σ).sum := by
      refine sum_le_map fun x hx => ?_
      split_ifs with h
      · subst h
        refine le_of_eq ?_
        unfold hyp
        simp only [sub_self]
        congr 1
        field_simp
        ring
      · rw [← Real.log_div (by linarith) hσ.ne']
        refine Real.log_le_log (hyp_pos hσ x) ?_
        unfold hyp
        simp only
        gcongr
        have := hK x hx
        nlinarith
    rw [sum_count] at h1
    have h2 : (s.length : ℝ) + 1 ≤ 2 * s.count c := by exact_mod_cast hc
    have h3 : (s.count c : ℝ) ≤ s.length := by exact_mod_cast List.count_le_length
    have h4 : (s.length - s.count c : ℝ) * Real.log K ≤ s.length * Real.log K := by
      have : (0 : ℝ) ≤ s.count c := Nat.cast_nonneg _
      nlinarith
    have h5 : (2 * s.count c - s.length : ℝ) * Real.log σ ≤ Real.log σ := by nlinarith
    nlinarith
  have hE : 0 < |M| + s.length * Real.log K + 1 := by positivity
  refine ⟨(c, Real.exp (-(|M| + s.length * Real.log K + 1))), Real.exp_pos _, ?_⟩
  have h := hle (Real.exp (-(|M| + s.length * Real.log K + 1))) (Real.exp_pos _) (by
    rw [Real.exp_lt_one_iff]
    linarith)
  rw [Real.log_exp] at h
  have := neg_abs_le M
  linarith

/-! ## HalfCauchy: the location is zero -/

theorem half_unique {s : List ℝ} {x : ℝ} (hx : x ∈ s) (hx0 : x ≠ 0) {b c : ℝ} (hb : 0 < b) (hc : 0 < c)
    (hbm : ∀ r, 0 < r → hypObj s (0, b) ≤ hypObj s (0, r)) (hcm : ∀ r, 0 < r → hypObj s (0, c) ≤ hypObj s (0, r)) : b = c := by
  have he : hypObj s (0, b) = hypObj s (0, c) := le_antisymm (hbm c hc) (hcm b hb)
  have hm1 : (midp (0, b) (0, c)).1 = 0 := by simp [midp]
  have hmp : midp (0, b) (0, c) = (0, (midp (0, b) (0, c)).2) := Prod.ext hm1 rfl
  have hpos := midp_pos (p := (0, b)) (q := (0, c)) hb hc
  by_contra hne
  have hf : flat (0, b) (0, c) x ≠ 0 := by
    unfold flat
    simp only [sub_zero]
    intro h
    have h1 : x * ((b - c) * (b + c)) = 0 := by linear_combination h
    rcases mul_eq_zero.1 h1 with h2 | h2
    · exact hx0 h2
    · rcases mul_eq_zero.1 h2 with h3 | h3
      · exact hne (sub_eq_zero.1 h3)
      · linarith
  have h1 := sum_lt_map (f := fun x => Real.log (hyp (midp (0, b) (0, c)) x)) (fun x _ => hyp_mid_le hb hc x) hx
    (hyp_mid_lt hb hc hf)
  rw [half_sum, hmp] at h1
  have h2 := hbm _ hpos
  unfold hypObj at h2 he
  linarith

theorem half_exists (s : List ℝ) (hs : s ≠ []) (hc : 2 * s.count 0 < s.length) :
    ∃ b, 0 < b ∧ ∀ r, 0 < r → hypObj s (0, b) ≤ hypObj s (0, r) := by
  obtain ⟨δ, hδ, hg⟩ := pos_lower ((s.filter fun x => x ≠ 0).map fun x => |x|) (by
    intro t ht
    obtain ⟨x, hx, rfl⟩ := List.mem_map.1 ht
    have := (List.mem_filter.1 hx).2
    simp only [ne_eq, decide_not, Bool.not_eq_eq_eq_not, Bool.not_true, decide_eq_false_iff_not] at this
    exact abs_pos.2 this)
  have hg' : ∀ x ∈ s, x ≠ 0 → δ ≤ |x| := fun x hx h =>
    hg _ (List.mem_map.2 ⟨x, List.mem_filter.2 ⟨hx, by simpa using h⟩, rfl⟩)
  have hn : (1 : ℝ) ≤ s.length := by exact_mod_cast List.length_pos_iff.2 hs
  have hsm : ∀ r, 0 < r → r < 1 → -Real.log r - s.length * |Real.log (δ ^ 2)| ≤ hypObj s (0, r) := by
    intro r hr hr1
    have hl : 0 < -Real.log r := by
      have := Real.log_neg hr hr1
      linarith
    have h1 : (s.map fun x => if x = 0 then Real.log r else Real.log (δ ^ 2) - Real.log r).sum ≤ hypObj s (0, r) := by
      refine sum_le_map fun x hx => ?_
      split_ifs with h
      · exact Real.log_le_log hr (hyp_ge (p := (0, r)) hr x)
      · rw [← Real.log_div (by positivity) hr.ne']
        refine Real.log_le_log (by positivity) ((?_ : _ ≤ (x - 0) ^ 2 / r).trans (hyp_ge' (p := (0, r)) hr x))
        rw [sub_zero, ← sq_abs x]
        have := hg' x hx h
        gcongr
    rw [sum_count] at h1
    refine le_trans ?_ h1
    have h2 : (2 : ℝ) * s.count 0 + 1 ≤ s.length := by exact_mod_cast hc
    have h3 : (0 : ℝ) ≤ s.count 0 := Nat.cast_nonneg _
    have habs : -|Real.log (δ ^ 2)| ≤ Real.log (δ ^ 2) := neg_abs_le _
    have h4 : (s.length - s.count 0 : ℝ) * -|Real.log (δ ^ 2)| ≤ (s.length - s.count 0 : ℝ) * Real.log (δ ^ 2) :=
      mul_le_mul_of_nonneg_left habs (by linarith)
    have h5 := abs_nonneg (Real.log (δ ^ 2))
    have h6 : -Real.log r ≤ (s.length - 2 * s.count 0 : ℝ) * -Real.log r := by nlinarith
    nlinarith
  set L := hypObj s (0, 1) with hL
  set D := |L| + s.length * |Real.log (δ ^ 2)| + 1 with hD
  have hD0 : 0 < D := by positivity
  have hr1 : Real.exp (-D) < 1 := by rw [Real.exp_lt_one_iff]; linarith
  obtain ⟨b, hb, hm⟩ := exists_max (fun b : ℝ => -hypObj s (0, b)) (Ioi 0) (Icc (Real.exp (-D)) (Real.exp (|L| + 1))) 1
    (by simp) isCompact_Icc (fun b hb => (Real.exp_pos _).trans_le hb.1)
    (((hypObj_cont s).comp (f := fun b : ℝ => ((0 : ℝ), b)) (by fun_prop)
      fun b hb => (Real.exp_pos _).trans_le hb.1).neg) (by
      intro b hb hout
      refine neg_lt_neg ?_
      by_contra hge
      have hb : 0 < b := hb
      refine hout ⟨?_, ?_⟩
      · by_contra h
        have h := not_le.1 h
        have h1 := hsm b hb (h.trans hr1)
        have h2 := Real.log_lt_log hb h
        rw [Real.log_exp] at h2
        have := le_abs_self L
        exact hge (by linarith)
      · by_contra h
        have h := not_le.1 h
        have h1 := hyp_large s (p := (0, b)) hb
        have h2 := Real.log_lt_log (Real.exp_pos _) h
        rw [Real.log_exp] at h2
        have := le_abs_self L
        have := abs_nonneg L
        simp only at h1
        exact hge (by nlinarith))
  exact ⟨b, hb, fun r hr => neg_le_neg_iff.1 (hm r hr)⟩

/-- with zeros in at least half of the sample halving the scale is always better -/
theorem half_none (s : List ℝ) (hs : s ≠ []) (hc : s.length ≤ 2 * s.count 0) {b : ℝ} (hb : 0 < b) :
    hypObj s (0, b / 2) < hypObj s (0, b) := by
  have h2 : 0 < Real.log 2 := Real.log_pos (by norm_num)
  have hz : ∀ x, x = 0 → Real.log (hyp (0, b / 2) x) = Real.log (hyp (0, b) x) - Real.log 2 := by
    rintro x rfl
    rw [← Real.log_div (hyp_pos (p := (0, b)) hb 0).ne' two_ne_zero]
    congr 1
    unfold hyp
    simp only [sub_zero]
    field_simp
    ring
  have hnz : ∀ x, x ≠ 0 → Real.log (hyp (0, b / 2) x) < Real.log (hyp (0, b) x) + Real.log 2 := by
    intro x hx
    rw [← Real.log_mul (hyp_pos (p := (0, b)) hb x).ne' two_ne_zero]
    refine Real.log_lt_log (hyp_pos (p := (0, b / 2)) (half_pos hb) x) ?_
    unfold hyp
    simp only [sub_zero]
    rw [div_lt_iff₀ (half_pos hb)]
    have : (x ^ 2 + b ^ 2) / b * 2 * (b / 2) = x ^ 2 + b ^ 2 := by field_simp
    rw [this]
    nlinarith
  have hsum : ∀ l : List ℝ, (l.map fun x => Real.log (hyp (0, b) x) + if x = 0 then -Real.log 2 else Real.log 2).sum =
      hypObj l (0, b) + (l.count 0 * -Real.log 2 + ((l.length : ℝ) - l.count 0) * Real.log 2) := by
    intro l
    rw [← sum_count]
    unfold hypObj
    induction l with
    | nil => simp
    | cons a t ih =>
      simp only [List.map_cons, List.sum_cons] at ih ⊢
      rw [ih]
      ring
  have hle : ∀ x ∈ s, Real.log (hyp (0, b / 2) x) ≤
      Real.log (hyp (0, b) x) + if x = 0 then -Real.log 2 else Real.log 2 := by
    intro x _
    split_ifs with h
    · rw [hz x h]; linarith
    · exact (hnz x h).le
  have hcr : (s.length : ℝ) ≤ 2 * s.count 0 := by exact_mod_cast hc
  by_cases hall : ∃ x ∈ s, x ≠ 0
  · obtain ⟨x, hx, hx0⟩ := hall
    have h3 := sum_lt_map hle hx (by rw [if_neg hx0]; exact hnz x hx0)
    rw [hsum] at h3
    have h3' : hypObj s (0, b / 2) < hypObj s (0, b) + (s.count 0 * -Real.log 2 + ((s.length : ℝ) - s.count 0) * Real.log 2) := h3
    nlinarith
  · push Not at hall
    have h3 := sum_le_map hle
    rw [hsum] at h3
    have h3' : hypObj s (0, b / 2) ≤ hypObj s (0, b) + (s.count 0 * -Real.log 2 + ((s.length : ℝ) - s.count 0) * Real.log 2) := h3
    have h4 : s.count 0 = s.length := List.count_eq_length.2 fun x hx => (hall x hx).symm
    have hn : (1 : ℝ) ≤ s.length := by exact_mod_cast List.length_pos_iff.2 hs
    rw [h4] at h3'
    nlinarith

end Verif.Ml
