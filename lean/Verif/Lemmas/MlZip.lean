import Verif.Lemmas.MlNegBin
import Mathlib.Analysis.Calculus.LocalExtr.Basic
import Mathlib.Analysis.Convex.SpecificFunctions.Basic
import Mathlib.Analysis.SpecialFunctions.ExpDeriv
import Mathlib.Tactic

/-!
# Most likely ZeroInflatedPoisson distributions

`z` zeros, `k` other values, total `T`.
-/

namespace Verif.Ml
open Verif.Spec Filter Topology

/-- the log-likelihood without the part that does not depend on the parameters -/
noncomputable def zipObj (z k T psi mu : ℝ) : ℝ :=
  z * Real.log (1 - psi + psi * Real.exp (-mu)) + k * (Real.log psi - mu) + T * Real.log mu

theorem zip_zero_pos {psi mu : ℝ} (h0 : 0 < psi) (h1 : psi < 1) : 0 < 1 - psi + psi * Real.exp (-mu) := by
  have := mul_pos h0 (Real.exp_pos (-mu))
  linarith

theorem zip_pos {psi mu : ℝ} (h0 : 0 < psi) (h1 : psi < 1) (hm : 0 < mu) (x : ℕ) :
    0 < zeroInflatedPmf psi (poissonPmf mu) x := by
  unfold zeroInflatedPmf
  split_ifs with h
  · unfold poissonPmf
    simpa using zip_zero_pos (mu := mu) h0 h1
  · unfold poissonPmf
    positivity

theorem zip_log (s : List ℕ) : ∃ C, ∀ psi mu : ℝ, 0 < psi → psi < 1 → 0 < mu →
    Real.log (lik (zeroInflatedPmf psi (poissonPmf mu)) s) = zipObj (s.count 0) (s.length - s.count 0) (tot s) psi mu + C := by
  refine ⟨(s.map fun x => -Real.log x.factorial).sum, fun psi mu h0 h1 hm => ?_⟩
  rw [log_lik' fun x _ => zip_pos h0 h1 hm x]
  unfold zipObj tot
  induction s with
  | nil => simp
  | cons x t ih =>
    simp only [List.map_cons, List.sum_cons, ih, List.length_cons]
    by_cases hx : x = 0
    · subst hx
      have : Real.log (zeroInflatedPmf psi (poissonPmf mu) 0) = Real.log (1 - psi + psi * Real.exp (-mu)) := by
        simp [zeroInflatedPmf, poissonPmf]
      rw [this]
      simp
      ring
    · have h2 : (0 : ℝ) < x.factorial := by positivity
      have : Real.log (zeroInflatedPmf psi (poissonPmf mu) x) = Real.log psi - mu + x * Real.log mu - Real.log x.factorial := by
        unfold zeroInflatedPmf poissonPmf
        rw [if_neg hx, Real.log_mul h0.ne' (by positivity), Real.log_div (by positivity) h2.ne',
          Real.log_mul (Real.exp_pos _).ne' (by positivity), Real.log_exp, Real.log_pow]
        ring
      rw [this, List.count_cons_of_ne hx]
      push_cast
      ring

/-- weighted logarithms are largest at the weights -/
private theorem gibbs {z k p : ℝ} (hz : 0 < z) (hk : 0 < k) (hp0 : 0 < p) (hp1 : p < 1) :
    z * Real.log (1 - p) + k * Real.log p ≤ z * Real.log (z / (z + k)) + k * Real.log (k / (z + k)) ∧
    (p ≠ k / (z + k) →
      z * Real.log (1 - p) + k * Real.log p < z * Real.log (z / (z + k)) + k * Real.log (k / (z + k))) := by
  have hp : 0 < 1 - p := by linarith
  have e1 : Real.log ((1 - p) / (z / (z + k))) = Real.log (1 - p) - Real.log (z / (z + k)) :=
    Real.log_div hp.ne' (by positivity)
  have e2 : Real.log (p / (k / (z + k))) = Real.log p - Real.log (k / (z + k)) := Real.log_div hp0.ne' (by positivity)
  have h1 := Real.log_le_sub_one_of_pos (x := (1 - p) / (z / (z + k))) (by positivity)
  have h2 := Real.log_le_sub_one_of_pos (x := p / (k / (z + k))) (by positivity)
  have h3 : z * ((1 - p) / (z / (z + k)) - 1) + k * (p / (k / (z + k)) - 1) = 0 := by
    field_simp
    ring
  rw [e1] at h1
  rw [e2] at h2
  have h4 := mul_le_mul_of_nonneg_left h1 hz.le
  refine ⟨by nlinarith [mul_le_mul_of_nonneg_left h2 hk.le], fun hne => ?_⟩
  have h5 := Real.log_lt_sub_one_of_pos (x := p / (k / (z + k))) (by positivity) (by
    intro h
    rw [div_eq_one_iff_eq (by positivity)] at h
    exact hne h)
  rw [e2] at h5
  nlinarith [mul_lt_mul_of_pos_left h5 hk]

private theorem exp_lt_chord {c x : ℝ} (h0 : 0 < c) (h1 : c < 1) (hx : 0 < x) :
    Real.exp (-(c * x)) < 1 - c + c * Real.exp (-x) := by
  have := strictConvexOn_exp.2 (Set.mem_univ (-x)) (Set.mem_univ (0 : ℝ)) (by linarith : -x ≠ 0) h0
    (by linarith : 0 < 1 - c) (by ring)
  simp only [smul_eq_mul, mul_zero, add_zero, Real.exp_zero, mul_one] at this
  rw [show -(c * x) = c * -x by ring]
  linarith

/-- the part of the likelihood that depends on `mu`, when the probability of a positive value is kept -/
private theorem tail_max {k T r : ℝ} (hk : 0 < k) (hT : 0 < T) (hr : 0 < r) (hroot : k * r = T * (1 - Real.exp (-r))) {mu : ℝ}
    (hmu : 0 < mu) (hne : mu ≠ r) :
    T * Real.log mu - k * Real.log (Real.exp mu - 1) < T * Real.log r - k * Real.log (Real.exp r - 1) := by
  have he : ∀ x : ℝ, 0 < x → 0 < Real.exp x - 1 := fun x hx => by
    have := Real.add_one_lt_exp hx.ne'
    linarith
  have hd : ∀ x : ℝ, 0 < x → HasDerivAt (fun x => T * Real.log x - k * Real.log (Real.exp x - 1))
      (T * x⁻¹ - k * (Real.exp x / (Real.exp x - 1))) x := by
    intro x hx
    have h1 := (Real.hasDerivAt_log hx.ne').const_mul T
    have h2 := (((Real.hasDerivAt_exp x).sub_const 1).log (he x hx).ne').const_mul k
    exact h1.sub h2
  have hval : ∀ x : ℝ, 0 < x → T * x⁻¹ - k * (Real.exp x / (Real.exp x - 1)) =
      (T * (1 - Real.exp (-x)) - k * x) * (Real.exp x / (x * (Real.exp x - 1))) := by
    intro x hx
    have := he x hx
    rw [Real.exp_neg]
    have := Real.exp_pos x
    field_simp
  have hfac : ∀ x : ℝ, 0 < x → 0 < Real.exp x / (x * (Real.exp x - 1)) := fun x hx =>
    div_pos (Real.exp_pos x) (mul_pos hx (he x hx))
  -- the chord lemma gives the sign
  have hlow : ∀ x : ℝ, 0 < x → x < r → 0 < T * (1 - Real.exp (-x)) - k * x := by
    intro x hx hxr
    have h1 := exp_lt_chord (c := x / r) (x := r) (by positivity) ((div_lt_one hr).2 hxr) hr
    rw [div_mul_cancel₀ x hr.ne'] at h1
    have h2 : k * x = x / r * (T * (1 - Real.exp (-r))) := by
      rw [← hroot]
      field_simp
    rw [h2]
    nlinarith [mul_lt_mul_of_pos_left h1 hT]
  have hhigh : ∀ x : ℝ, r < x → T * (1 - Real.exp (-x)) - k * x < 0 := by
    intro x hxr
    have hx : 0 < x := hr.trans hxr
    have h1 := exp_lt_chord (c := r / x) (x := x) (by positivity) ((div_lt_one hx).2 hxr) hx
    rw [div_mul_cancel₀ r hx.ne'] at h1
    have h2 : r / x * (T * (1 - Real.exp (-x))) < k * r := by
      rw [hroot]
      nlinarith [mul_lt_mul_of_pos_left h1 hT]
    have h3 : r / x * (T * (1 - Real.exp (-x)) - k * x) < 0 := by
      have : r / x * (k * x) = k * r := by field_simp
      rw [mul_sub, this]
      linarith
    by_contra h
    have := mul_nonneg (show (0 : ℝ) ≤ r / x by positivity) (not_lt.1 h)
    linarith
  rcases lt_or_gt_of_ne hne with h | h
  · have hmono : StrictMonoOn (fun x => T * Real.log x - k * Real.log (Real.exp x - 1)) (Set.Ioc 0 r) := by
      refine strictMonoOn_of_deriv_pos (convex_Ioc 0 r) (fun x hx => (hd x hx.1).continuousAt.continuousWithinAt) ?_
      intro x hx
      rw [interior_Ioc] at hx
      rw [(hd x hx.1).deriv, hval x hx.1]
      exact mul_pos (hlow x hx.1 hx.2) (hfac x hx.1)
    exact hmono ⟨hmu, h.le⟩ ⟨hr, le_rfl⟩ h
  · have hanti : StrictAntiOn (fun x => T * Real.log x - k * Real.log (Real.exp x - 1)) (Set.Ici r) := by
      refine strictAntiOn_of_deriv_neg (convex_Ici r) (fun x hx => (hd x (hr.trans_le hx)).continuousAt.continuousWithinAt) ?_
      intro x hx
      rw [interior_Ici] at hx
      have hx0 := hr.trans hx
      rw [(hd x hx0).deriv, hval x hx0]
      exact mul_neg_of_neg_of_pos (hhigh x hx) (hfac x hx0)
    exact hanti (Set.mem_Ici.2 le_rfl) h.le h

private theorem zip_split {z k T psi mu : ℝ} (h0 : 0 < psi) (hm : 0 < mu) :
    zipObj z k T psi mu = (z * Real.log (1 - psi * (1 - Real.exp (-mu))) + k * Real.log (psi * (1 - Real.exp (-mu)))) +
      (T * Real.log mu - k * Real.log (Real.exp mu - 1)) := by
  unfold zipObj
  have h1 : 0 < 1 - Real.exp (-mu) := by
    have : Real.exp (-mu) < 1 := by rw [Real.exp_lt_one_iff]; linarith
    linarith
  have h2 : Real.exp mu - 1 = Real.exp mu * (1 - Real.exp (-mu)) := by
    rw [mul_sub, mul_one, ← Real.exp_add]
    simp
  rw [h2, Real.log_mul (Real.exp_pos mu).ne' h1.ne', Real.log_exp, Real.log_mul h0.ne' h1.ne']
  rw [show 1 - psi * (1 - Real.exp (-mu)) = 1 - psi + psi * Real.exp (-mu) by ring]
  ring

/-- more zeros than a Poisson distribution with the same mean has: exactly one most likely distribution, given by
`T = N psi mu` and `k = N psi (1 - exp (-mu))` -/
theorem zip_unique {z k T : ℝ} (hz : 0 ≤ z) (hk : 0 ≤ k) (hN : 0 < z + k) (hT : 0 ≤ T)
    (hTk : k = 0 → T = 0) (h : Real.exp (-(T / (z + k))) < z / (z + k)) :
    ∃ psi mu : ℝ, (0 < psi ∧ psi < 1 ∧ 0 < mu) ∧ T = (z + k) * (psi * mu) ∧ k = (z + k) * (psi * (1 - Real.exp (-mu))) ∧
      ∀ psi' mu' : ℝ, 0 < psi' → psi' < 1 → 0 < mu' → (psi', mu') ≠ (psi, mu) →
        zipObj z k T psi' mu' < zipObj z k T psi mu := by
  have hz0 : 0 < z := by
    rcases hz.eq_or_lt with h1 | h1
    · rw [← h1] at h
      have := Real.exp_pos (-(T / (0 + k)))
      rw [zero_div] at h
      linarith
    · exact h1
  have hT0 : 0 < T := by
    rcases hT.eq_or_lt with h1 | h1
    · rw [← h1, zero_div, neg_zero, Real.exp_zero, one_lt_div hN] at h
      linarith
    · exact h1
  have hk0 : 0 < k := lt_of_le_of_ne hk fun h1 => hT0.ne' (hTk h1.symm)
  set N := z + k with hNd
  -- the root
  set f : ℝ → ℝ := fun x => T * (1 - Real.exp (-x)) - k * x with hf
  have hc : Continuous f := by rw [hf]; fun_prop
  have hm : 0 < T / N := by positivity
  have hlt : T / N < T / k := div_lt_div_of_pos_left hT0 hk0 (by linarith)
  have hf1 : 0 < f (T / N) := by
    have h1 : k = N * (1 - z / N) := by field_simp; linarith
    have h2 : k * (T / N) = T * (1 - z / N) := by
      rw [h1]
      field_simp
    simp only [hf, h2]
    nlinarith
  have hf2 : f (T / k) < 0 := by
    have h1 : k * (T / k) = T := by field_simp
    simp only [hf, h1]
    nlinarith [mul_pos hT0 (Real.exp_pos (-(T / k)))]
  obtain ⟨r, hr, hr0⟩ := intermediate_value_Ioo' hlt.le hc.continuousOn (show (0 : ℝ) ∈ Set.Ioo (f (T / k)) (f (T / N)) from ⟨hf2, hf1⟩)
  have hrpos : 0 < r := hm.trans hr.1
  have hroot : k * r = T * (1 - Real.exp (-r)) := by
    simp only [hf] at hr0
    linarith
  have hq : 0 < 1 - Real.exp (-r) := by
    have : Real.exp (-r) < 1 := by rw [Real.exp_lt_one_iff]; linarith
    linarith
  have hpsi1 : T / N / r < 1 := (div_lt_one hrpos).2 hr.1
  have hpsi0 : 0 < T / N / r := by positivity
  have hpi : T / N / r * (1 - Real.exp (-r)) = k / N := by
    have : 1 - Real.exp (-r) = k * r / T := by rw [hroot]; field_simp
    rw [this]
    field_simp
  refine ⟨T / N / r, r, ⟨hpsi0, hpsi1, hrpos⟩, by field_simp, by rw [hpi]; field_simp, ?_⟩
  intro psi' mu' h0 h1 hm' hne
  have hq' : 0 < 1 - Real.exp (-mu') := by
    have : Real.exp (-mu') < 1 := by rw [Real.exp_lt_one_iff]; linarith
    linarith
  have hq1 : 1 - Real.exp (-mu') < 1 := by
    have := Real.exp_pos (-mu')
    linarith
  rw [zip_split h0 hm', zip_split hpsi0 hrpos, hpi]
  have hp1 : psi' * (1 - Real.exp (-mu')) < 1 := by nlinarith
  obtain ⟨g1, g2⟩ := gibbs hz0 hk0 (mul_pos h0 hq') hp1
  rw [← hNd] at g1 g2
  have hzN : 1 - k / N = z / N := by field_simp; linarith
  rw [hzN]
  by_cases hmu : mu' = r
  · have hps : psi' * (1 - Real.exp (-mu')) ≠ k / N := by
      intro he
      apply hne
      rw [Prod.mk.injEq]
      refine ⟨?_, hmu⟩
      rw [← hpi, hmu] at he
      exact mul_right_cancel₀ hq.ne' he
    have := g2 hps
    rw [hmu] at this ⊢
    linarith
  · have := tail_max hk0 hT0 hrpos hroot hm' hmu
    linarith

/-- if there are most likely parameters, the sample has more zeros than a Poisson distribution with the same mean -/
theorem zip_more_zeros {z k T : ℝ} (hN : 0 < z + k) {psi mu : ℝ}
    (h0 : 0 < psi) (h1 : psi < 1) (hm : 0 < mu)
    (hmax : ∀ psi' mu' : ℝ, 0 < psi' → psi' < 1 → 0 < mu' → zipObj z k T psi' mu' ≤ zipObj z k T psi mu) :
    Real.exp (-(T / (z + k))) < z / (z + k) := by
  have hq : 0 < 1 - Real.exp (-mu) := by
    have : Real.exp (-mu) < 1 := by rw [Real.exp_lt_one_iff]; linarith
    linarith
  have hb := zip_zero_pos (mu := mu) h0 h1
  -- stationary in psi
  have hd1 : HasDerivAt (fun p => zipObj z k T p mu) (z * ((-1 + Real.exp (-mu)) / (1 - psi + psi * Real.exp (-mu))) + k * psi⁻¹) psi := by
    unfold zipObj
    have a1 : HasDerivAt (fun p : ℝ => 1 - p + p * Real.exp (-mu)) (-1 + Real.exp (-mu)) psi := by
      have := ((hasDerivAt_id psi).const_sub 1).fun_add ((hasDerivAt_id psi).mul_const (Real.exp (-mu)))
      simpa using this
    have a2 := (a1.log hb.ne').const_mul z
    have a3 := ((Real.hasDerivAt_log h0.ne').sub_const mu).const_mul k
    exact (a2.add a3).add_const _
  have hs1 : IsLocalMax (fun p => zipObj z k T p mu) psi := by
    filter_upwards [Ioo_mem_nhds h0 h1] with p hp
    exact hmax p mu hp.1 hp.2 hm
  have e1 := hs1.hasDerivAt_eq_zero hd1
  have hd2 : HasDerivAt (fun u => zipObj z k T psi u)
      (z * (-(psi * Real.exp (-mu)) / (1 - psi + psi * Real.exp (-mu))) - k + T * mu⁻¹) mu := by
    unfold zipObj
    have a0 : HasDerivAt (fun u : ℝ => Real.exp (-u)) (-Real.exp (-mu)) mu := by
      have := (hasDerivAt_id mu).neg.exp
      simpa using this
    have a1 : HasDerivAt (fun u : ℝ => 1 - psi + psi * Real.exp (-u)) (-(psi * Real.exp (-mu))) mu := by
      have := (a0.const_mul psi).const_add (1 - psi)
      simpa using this
    have a2 := (a1.log hb.ne').const_mul z
    have a3 := ((hasDerivAt_id mu).const_sub (Real.log psi)).const_mul k
    have a4 := (Real.hasDerivAt_log hm.ne').const_mul T
    have := (a2.add a3).add a4
    refine this.congr_deriv ?_
    ring
  have hs2 : IsLocalMax (fun u => zipObj z k T psi u) mu := by
    filter_upwards [Ioi_mem_nhds hm] with u hu
    exact hmax psi u h0 h1 hu
  have e2 := hs2.hasDerivAt_eq_zero hd2
  set E := Real.exp (-mu) with hE
  set N := z + k with hNd
  have hb2 : 1 - psi + psi * E = 1 - psi * (1 - E) := by ring
  obtain ⟨B, hB⟩ : ∃ B, B = 1 - psi + psi * E := ⟨_, rfl⟩
  rw [← hB] at e1 e2 hb
  have e3 : k = N * (psi * (1 - E)) := by
    have h5 : z * (-1 + E) * psi + k * B = 0 := by
      have h6 : z * (-1 + E) * psi + k * B = (z * ((-1 + E) / B) + k * psi⁻¹) * (B * psi) := by
        field_simp
      rw [h6, e1, zero_mul]
    rw [hB] at h5
    rw [hNd]
    linarith
  have hzE : z = N * B := by
    rw [hB, hb2]
    have : z = N - k := by rw [hNd]; ring
    linarith
  have e4 : T = N * (psi * mu) := by
    have h5 : z * (-(psi * E) / B) = -(N * (psi * E)) := by
      rw [hzE]
      field_simp
    rw [h5] at e2
    have h6 : T = (T * mu⁻¹) * mu := by field_simp
    rw [h6, show T * mu⁻¹ = N * (psi * E) + k by linarith]
    rw [show N * (psi * E) + k = N * psi by linarith]
    ring
  have e5 : T / N = psi * mu := by rw [e4]; field_simp
  have e6 : z / N = 1 - psi + psi * E := by
    rw [← hB, hzE]
    field_simp
  rw [e5, e6]
  exact exp_lt_chord h0 h1 hm

end Verif.Ml
