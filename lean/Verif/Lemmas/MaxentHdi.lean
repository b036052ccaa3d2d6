import Verif.Lemmas.SkewLaw
import Verif.Lemmas.SkewStudent
import Verif.Spec.MaxentHdi
import Verif.Lemmas.LocScale
import Verif.Lemmas.LawLogGamma
import Verif.Lemmas.LawGamma
import Mathlib.Topology.Order.Compact

/-!
# Shortest intervals of densities with one mode
-/

namespace Verif.Lemmas.MaxentHdi
open MeasureTheory Set Filter Topology Verif.Spec Verif.Law Verif.LocScale

variable {g : ℝ → ℝ} {k : ℝ}

/-- probability of `[a, b]` -/
noncomputable def area (g : ℝ → ℝ) (a b : ℝ) : ℝ := ∫ x in a..b, g x

theorem hii (hg : Humped g k) (a b : ℝ) : IntervalIntegrable g volume a b := hg.cont.intervalIntegrable a b

theorem area_split (hg : Humped g k) (a b c : ℝ) : area g a b + area g b c = area g a c :=
  intervalIntegral.integral_add_adjacent_intervals (hii hg a b) (hii hg b c)

theorem area_pos (hg : Humped g k) {a b : ℝ} (h : a < b) : 0 < area g a b :=
  intervalIntegral.intervalIntegral_pos_of_pos_on (hii hg a b) (fun x _ => hg.pos x) h

theorem area_self (g : ℝ → ℝ) (a : ℝ) : area g a a = 0 := intervalIntegral.integral_same

theorem area_nonneg (hg : Humped g k) {a b : ℝ} (h : a ≤ b) : 0 ≤ area g a b := by
  rcases h.lt_or_eq with h | rfl
  · exact (area_pos hg h).le
  · rw [area_self]

theorem area_cont (hg : Humped g k) (a : ℝ) : Continuous (area g a) :=
  intervalIntegral.continuous_primitive (f := g) (fun a b => hii hg a b) a

/-- moving an interval to the right gains what enters and loses what leaves -/
theorem area_shift (hg : Humped g k) (a b t : ℝ) :
    area g (a + t) (b + t) = area g a b + area (fun x => g (x + (b - a)) - g x) a (a + t) := by
  have e1 := area_split hg a (a + t) (b + t)
  have e2 := area_split hg a b (b + t)
  have e3 : area (fun x => g (x + (b - a)) - g x) a (a + t) = area g b (b + t) - area g a (a + t) := by
    have c1 : Continuous fun x => g (x + (b - a)) := hg.cont.comp (continuous_add_const _)
    unfold area
    rw [intervalIntegral.integral_sub (c1.intervalIntegrable _ _) (hii hg _ _),
      intervalIntegral.integral_comp_add_right g (b - a)]
    congr 2 <;> ring
  rw [e3]; linarith

/-- the integral of a negative function -/
theorem neg_area {f : ℝ → ℝ} (hf : Continuous f) {a b : ℝ} (h : a < b) (hn : ∀ x, a < x → x < b → f x < 0) : area f a b < 0 := by
  have := intervalIntegral.intervalIntegral_pos_of_pos_on (f := fun x => -f x) (hf.neg.intervalIntegrable a b)
    (fun x hx => neg_pos.2 (hn x hx.1 hx.2)) h
  rw [intervalIntegral.integral_neg] at this
  unfold area; linarith

theorem pos_area {f : ℝ → ℝ} (hf : Continuous f) {a b : ℝ} (h : a < b) (hn : ∀ x, a < x → x < b → 0 < f x) : 0 < area f a b :=
  intervalIntegral.intervalIntegral_pos_of_pos_on (hf.intervalIntegrable a b) (fun x hx => hn x hx.1 hx.2) h

/-- an interval with the same density at its ends has more probability than every other of its length -/
theorem equal_best (hg : Humped g k) {a b : ℝ} (h : a < b) (he : g a = g b) {c : ℝ} (hc : c ≠ a) :
    area g c (c + (b - a)) < area g a b := by
  have hak : a < k := by
    by_contra h'
    exact absurd he (hg.falls a b (not_lt.1 h') h).ne'
  have hkb : k < b := by
    by_contra h'
    exact absurd he (hg.rises a b h (not_lt.1 h')).ne
  have hcont : Continuous fun x => g (x + (b - a)) - g x := (hg.cont.comp (continuous_add_const _)).sub hg.cont
  have e := area_shift hg a b (c - a)
  rw [show a + (c - a) = c by ring, show b + (c - a) = c + (b - a) by ring] at e
  rw [e]
  rcases lt_or_gt_of_ne hc with h1 | h1
  · have : 0 < area (fun x => g (x + (b - a)) - g x) c a := by
      refine pos_area hcont h1 fun x _ hx => sub_pos.2 ?_
      rcases le_total (x + (b - a)) k with h2 | h2
      · exact hg.rises _ _ (by linarith) h2
      · exact (hg.rises x a hx hak.le).trans (he.trans_lt (hg.falls _ b h2 (by linarith)))
    have s : area (fun x => g (x + (b - a)) - g x) a c = -area (fun x => g (x + (b - a)) - g x) c a :=
      intervalIntegral.integral_symm _ _
    rw [s]; linarith
  · have : area (fun x => g (x + (b - a)) - g x) a c < 0 := by
      refine neg_area hcont h1 fun x hx _ => sub_neg.2 ?_
      rcases le_total k x with h2 | h2
      · exact hg.falls _ _ h2 (by linarith)
      · exact (hg.falls b _ hkb.le (by linarith)).trans (he ▸ hg.rises a x hx h2)
    linarith

/-- an interval with too much probability can be cut -/
theorem cut (hg : Humped g k) {a b p : ℝ} (hp : 0 ≤ p) (hab : a ≤ b) (h : p < area g a b) :
    ∃ b', a ≤ b' ∧ b' < b ∧ area g a b' = p := by
  obtain ⟨b', hb', e⟩ := intermediate_value_Icc hab (area_cont hg a).continuousOn ⟨by rw [area_self]; exact hp, h.le⟩
  refine ⟨b', hb'.1, lt_of_le_of_ne hb'.2 ?_, e⟩
  rintro rfl
  linarith

/-- no shorter interval has the probability of `[a, b]` -/
def Least (g : ℝ → ℝ) (p a b : ℝ) : Prop := area g a b = p ∧ ∀ c d, c ≤ d → area g c d = p → b - a ≤ d - c

theorem least_of_equal (hg : Humped g k) {a b : ℝ} (h : a < b) (he : g a = g b) : Least g (area g a b) a b := by
  refine ⟨rfl, fun c d hcd e => ?_⟩
  by_contra hc
  have h1 : area g c (c + (b - a)) ≤ area g a b := by
    by_cases hca : c = a
    · rw [hca]; simp
    · exact (equal_best hg h he hca).le
  have h2 := area_split hg c d (c + (b - a))
  have h3 := area_pos hg (show d < c + (b - a) by linarith)
  linarith

/-- and an interval with no more length and other ends has less -/
theorem less_of_equal (hg : Humped g k) {a b : ℝ} (h : a < b) (he : g a = g b) {c d : ℝ} (hl : d - c ≤ b - a)
    (hne : ¬(c = a ∧ d = b)) : area g c d < area g a b := by
  have h2 := area_split hg c d (c + (b - a))
  have h3 := area_nonneg hg (show d ≤ c + (b - a) by linarith)
  by_cases hca : c = a
  · subst hca
    have : d < b := lt_of_le_of_ne (by linarith) fun h => hne ⟨rfl, h⟩
    have := area_pos hg this
    have := area_split hg c d b
    linarith
  · have := equal_best hg h he hca
    linarith

/-- a shortest interval has the same density at both ends -/
theorem equal_of_least (hg : Humped g k) {p a b : ℝ} (hp : 0 ≤ p) (hab : a ≤ b) (h : Least g p a b) : g a = g b := by
  obtain ⟨h1, h2⟩ := h
  have key : ∀ t, area g (a + t) (b + t) ≤ p := by
    intro t
    by_contra hc
    obtain ⟨b', hb1, hb2, e⟩ := cut hg hp (by linarith) (not_le.1 hc)
    have := h2 _ _ hb1 e
    linarith
  have hcont : Continuous fun x => g (x + (b - a)) - g x := (hg.cont.comp (continuous_add_const _)).sub hg.cont
  by_contra hne
  rcases lt_or_gt_of_ne hne with h' | h'
  · have hpos : 0 < g (a + (b - a)) - g a := by rw [add_sub_cancel]; exact sub_pos.2 h'
    obtain ⟨e, he, hb⟩ := Metric.eventually_nhds_iff.1 (hcont.continuousAt.eventually (lt_mem_nhds hpos))
    have := pos_area hcont (show a < a + e / 2 by linarith) fun x h3 h4 => hb (by
      rw [Real.dist_eq, abs_of_pos (by linarith)]; linarith)
    have k1 := key (e / 2)
    rw [area_shift hg] at k1
    linarith
  · have hneg : g (a + (b - a)) - g a < 0 := by rw [add_sub_cancel]; exact sub_neg.2 h'
    obtain ⟨e, he, hb⟩ := Metric.eventually_nhds_iff.1 (hcont.continuousAt.eventually (gt_mem_nhds hneg))
    have := neg_area hcont (show a - e / 2 < a by linarith) fun x h3 h4 => hb (by
      rw [Real.dist_eq, abs_of_neg (by linarith)]; linarith)
    have k1 := key (-(e / 2))
    rw [area_shift hg, show a + -(e / 2) = a - e / 2 by ring] at k1
    have s : area (fun x => g (x + (b - a)) - g x) a (a - e / 2) = -area (fun x => g (x + (b - a)) - g x) (a - e / 2) a :=
      intervalIntegral.integral_symm _ _
    linarith

/-- there is a shortest interval -/
theorem least_exists (hg : Humped g k) {p : ℝ} (h0 : 0 < p) (h1 : p < 1) : ∃ a b, a < b ∧ Least g p a b := by
  have lim : Tendsto (fun n : ℕ => area g (-n) n) atTop (𝓝 1) := by
    rw [← hg.one]
    exact intervalIntegral_tendsto_integral hg.int (tendsto_neg_atTop_atBot.comp tendsto_natCast_atTop_atTop)
      tendsto_natCast_atTop_atTop
  -- an interval with more than p, and one with more than 1 - p
  obtain ⟨n, hn⟩ := (lim.eventually (lt_mem_nhds h1)).exists
  obtain ⟨j, hj⟩ := (lim.eventually (lt_mem_nhds (show 1 - p < 1 by linarith))).exists
  have le1 : ∀ a b, a ≤ b → area g a b ≤ 1 := by
    intro a b hab
    unfold area
    rw [intervalIntegral.integral_of_le hab, ← hg.one]
    exact setIntegral_le_integral hg.int (ae_of_all _ fun x => (hg.pos x).le)
  have jn : (0 : ℝ) ≤ j := Nat.cast_nonneg j
  have nn : (0 : ℝ) ≤ n := Nat.cast_nonneg n
  let L : ℝ := 2 * n
  let K : Set (ℝ × ℝ) := {x | p ≤ area g x.1 x.2 ∧ x.2 - x.1 ≤ L ∧ x.1 ≤ x.2}
  have ac : Continuous fun x : ℝ × ℝ => area g x.1 x.2 := by
    have e : (fun x : ℝ × ℝ => area g x.1 x.2) = fun x => area g 0 x.2 - area g 0 x.1 := by
      funext x
      have := area_split hg 0 x.1 x.2
      linarith
    rw [e]
    exact ((area_cont hg 0).comp continuous_snd).sub ((area_cont hg 0).comp continuous_fst)
  have Kc : IsClosed K :=
    (isClosed_le continuous_const ac).inter ((isClosed_le (continuous_snd.sub continuous_fst) continuous_const).inter
      (isClosed_le continuous_fst continuous_snd))
  have sub : K ⊆ Icc (-j - L) (j + L) ×ˢ Icc (-j - L) (j + L) := by
    rintro ⟨a, b⟩ ⟨ha, hb, hab⟩
    simp only at ha hb hab
    have L0 : 0 ≤ L := by simp only [L]; positivity
    -- the interval meets [-j, j]
    have hbj : -(j : ℝ) ≤ b := by
      by_contra hc
      have h2 := le1 a j (by linarith)
      have := area_split hg a b j
      have := area_split hg b (-j) j
      have := area_nonneg hg (show b ≤ -(j : ℝ) by linarith)
      linarith
    have haj : a ≤ j := by
      by_contra hc
      have h2 := le1 (-j) b (by linarith)
      have := area_split hg (-j) a b
      have := area_split hg (-j) j a
      have := area_nonneg hg (show (j : ℝ) ≤ a by linarith)
      linarith
    simp only [mem_prod, mem_Icc]
    refine ⟨⟨?_, ?_⟩, ?_, ?_⟩ <;> linarith
  have Kk : IsCompact K := (isCompact_Icc.prod isCompact_Icc).of_isClosed_subset Kc sub
  have Kn : K.Nonempty := ⟨(-n, n), hn.le, by simp only [L]; linarith, by simp only; linarith⟩
  obtain ⟨⟨a, b⟩, ⟨ha, hb, hab⟩, hmin⟩ := Kk.exists_isMinOn Kn
    (show ContinuousOn (fun x : ℝ × ℝ => x.2 - x.1) K from (by fun_prop : Continuous fun x : ℝ × ℝ => x.2 - x.1).continuousOn)
  simp only at ha hb hab
  have e : area g a b = p := by
    by_contra hne
    obtain ⟨b', c1, c2, c3⟩ := cut hg h0.le hab (lt_of_le_of_ne ha (Ne.symm hne))
    have := hmin (show (a, b') ∈ K from ⟨c3.ge, by simp only; linarith, c1⟩)
    simp only [mem_setOf_eq] at this
    linarith
  refine ⟨a, b, lt_of_le_of_ne hab ?_, e, fun c d hcd hm => ?_⟩
  · rintro rfl
    rw [area_self] at e; linarith
  · by_cases hL : d - c ≤ L
    · have := hmin (show (c, d) ∈ K from ⟨hm.ge, hL, hcd⟩)
      simpa using this
    · linarith

theorem area_lt_one (hg : Humped g k) {a b : ℝ} (hab : a ≤ b) : area g a b < 1 := by
  have h1 : area g a (b + 1) ≤ 1 := by
    unfold area
    rw [intervalIntegral.integral_of_le (by linarith), ← hg.one]
    exact setIntegral_le_integral hg.int (ae_of_all _ fun x => (hg.pos x).le)
  have h2 := area_split hg a b (b + 1)
  have h3 := area_pos hg (show b < b + 1 by linarith)
  linarith

/-! ### moved and stretched -/

theorem hump_mass (hg : Humped g k) (m : ℝ) {s : ℝ} (hs : 0 < s) {l u : ℝ} (h : l ≤ u) :
    massOf (moved g m s) l u = area g ((l - m) / s) ((u - m) / s) := by
  have h1 : Integrable fun x => g (x / s) := hg.int.comp_div hs.ne'
  have hm : Measurable (moved g m s) := (hg.cont.measurable.comp (by fun_prop)).div_const _
  have hi : Integrable (moved g m s) := (h1.comp_sub_right m).div_const s
  rw [massOf_eq hm (fun x => div_nonneg (hg.pos _).le hs.le) hi h]
  unfold moved area
  rw [intervalIntegral.integral_div, intervalIntegral.integral_comp_sub_right (fun x => g (x / s)) m,
    intervalIntegral.integral_comp_div g hs.ne', smul_eq_mul, mul_comm, mul_div_assoc, div_self hs.ne', mul_one]

theorem hump_entropy (hg : Humped g k) (m : ℝ) {s : ℝ} (hs : 0 < s) :
    entropyOf (moved g m s) = Real.log s + entropyOf g := by
  unfold entropyOf moved
  have e : ∀ x, g ((x - m) / s) / s * Real.log (g ((x - m) / s) / s) =
      (g ((x - m) / s) * Real.log (g ((x - m) / s)) - Real.log s * g ((x - m) / s)) / s := by
    intro x
    rw [Real.log_div (hg.pos _).ne' hs.ne']; ring
  simp only [e]
  have i1 := (show HI (fun x => g x * Real.log (g x)) _ from ⟨hg.ent, rfl⟩).affine m hs
  have i2 := (show HI g 1 from ⟨hg.int, hg.one⟩).affine m hs
  rw [integral_div, integral_sub i1.1 (i2.1.const_mul _), integral_const_mul, i1.2, i2.2]
  field_simp
  ring

/-! ### the families -/

theorem hump_peak {f : ℝ → ℝ} (hf : Peak f) : Humped f 0 where
  cont := hf.cont
  pos := peak_pos hf
  rises x y h hy := by
    rw [← hf.even x, ← hf.even y]
    exact hf.falls _ _ (by linarith) (by linarith)
  falls := hf.falls
  int := hf.int
  one := hf.one
  ent := hf.ent

theorem valley_down {x y : ℝ} (h : x < y) (hy : y ≤ 0) : y + Real.exp (-y) < x + Real.exp (-x) := by
  have h1 := Real.add_one_lt_exp (show y - x ≠ 0 by linarith)
  have h2 : Real.exp (-x) = Real.exp (-y) * Real.exp (y - x) := by rw [← Real.exp_add]; congr 1; ring
  have h3 : 1 ≤ Real.exp (-y) := Real.one_le_exp (by linarith)
  rw [h2]
  nlinarith

theorem valley_up {x y : ℝ} (h : x < y) (hx : 0 ≤ x) : x + Real.exp (-x) < y + Real.exp (-y) := by
  have h1 := Real.add_one_lt_exp (show -(y - x) ≠ 0 by linarith)
  have h2 : Real.exp (-y) = Real.exp (-x) * Real.exp (-(y - x)) := by rw [← Real.exp_add]; congr 1; ring
  have h3 : Real.exp (-x) ≤ 1 := Real.exp_le_one_iff.2 (by linarith)
  have h4 := Real.exp_pos (-x)
  rw [h2]
  nlinarith

/-- `c exp(-a (z + exp(-z)))` -/
theorem hump_valley {c a q r : ℝ} (hc : 0 < c) (ha : 0 < a)
    (hr : Raw (fun z => c * Real.exp (-(a * (z + Real.exp (-z))))) q r) :
    Humped (fun z => c * Real.exp (-(a * (z + Real.exp (-z))))) 0 where
  cont := by fun_prop
  pos x := by positivity
  rises x y h hy := mul_lt_mul_of_pos_left (Real.exp_lt_exp.2 (neg_lt_neg (mul_lt_mul_of_pos_left (valley_down h hy) ha))) hc
  falls x y hx h := mul_lt_mul_of_pos_left (Real.exp_lt_exp.2 (neg_lt_neg (mul_lt_mul_of_pos_left (valley_up h hx) ha))) hc
  int := hr.one.1
  one := hr.one.2
  ent := by
    have h3 : Integrable fun z => Real.exp (-z) * (c * Real.exp (-(a * (z + Real.exp (-z))))) := by
      have h := ((HIs.exp.mp (gammaInt (a := a + 1) (b := a) (by linarith) ha)).neg.cmul c).1
      refine h.congr (ae_of_all _ fun z => ?_)
      simp only
      rw [← Real.exp_mul]
      have e : Real.exp (-z) * (c * Real.exp (-(a * (z + Real.exp (-z))))) =
          c * (Real.exp (-z) * Real.exp (-(a * z)) * Real.exp (-(a * Real.exp (-z)))) := by
        rw [mul_assoc (Real.exp (-z)), ← Real.exp_add]
        ring_nf
      rw [e, mul_assoc (Real.exp (-z))]
      congr 4
      ring
    have h := ((hr.one.1.const_mul (Real.log c)).sub (hr.first.1.const_mul a)).sub (h3.const_mul a)
    refine h.congr (ae_of_all _ fun z => ?_)
    simp only [Pi.sub_apply]
    rw [Real.log_mul hc.ne' (Real.exp_pos _).ne', Real.log_exp]
    ring

theorem hump_gumbel : Humped (gumbelPdf 0 1) 0 := by
  have e : gumbelPdf 0 1 = fun z => 1 * Real.exp (-(1 * (z + Real.exp (-z)))) := by
    funext z; simp [gumbelPdf]
  rw [e]
  refine hump_valley one_pos one_pos ((logGammaRaw one_pos).congr fun z => ?_)
  rw [Real.Gamma_one, one_div_one, one_mul, one_mul, ← Real.exp_add]
  ring_nf

theorem hump_moyal : Humped (moyalPdf 0 1) 0 := by
  have e : moyalPdf 0 1 = fun z => 1 / √(2 * Real.pi) * Real.exp (-(1 / 2 * (z + Real.exp (-z)))) := by
    funext z; simp [moyalPdf]
  rw [e]
  refine hump_valley (by positivity) one_half_pos (((logGammaRaw one_half_pos).affine (-Real.log 2) one_pos).congr fun z => ?_)
  have e1 : Real.exp (-((z - -Real.log 2) / 1)) = Real.exp (-z) / 2 := by
    rw [div_one, sub_neg_eq_add, neg_add, Real.exp_add, Real.exp_neg (Real.log 2), Real.exp_log two_pos]; ring
  have e2 : Real.exp (-(1 / 2 * ((z - -Real.log 2) / 1))) = Real.exp (-(1 / 2 * z)) / √2 := by
    rw [div_one, sub_neg_eq_add, mul_add, neg_add, Real.exp_add, Real.exp_neg (1 / 2 * Real.log 2), mul_comm (1 / 2) (Real.log 2),
      ← Real.rpow_def_of_pos two_pos, ← Real.sqrt_eq_rpow]; ring
  rw [e1, e2, Real.Gamma_one_half_eq, Real.sqrt_mul two_pos.le, mul_add, neg_add, Real.exp_add,
    show -(Real.exp (-z) / 2) = -(1 / 2 * Real.exp (-z)) by ring]
  ring

theorem hump_asym {κ : ℝ} (hk : 0 < κ) : Humped (asymLaplacePdf κ 0 1) 0 := by
  have hc : 0 < 1 / (1 * (κ + 1 / κ)) := by positivity
  have hr := asymRaw hk
  have en : ∀ x, x < 0 → asymLaplacePdf κ 0 1 x = 1 / (1 * (κ + 1 / κ)) * Real.exp (x / κ) := by
    intro x hx; simp [asymLaplacePdf, hx]
  have ep : ∀ x, 0 ≤ x → asymLaplacePdf κ 0 1 x = 1 / (1 * (κ + 1 / κ)) * Real.exp (-(x * κ)) := by
    intro x hx; simp [asymLaplacePdf, not_lt.2 hx]
  have en' : ∀ x, x ≤ 0 → asymLaplacePdf κ 0 1 x = 1 / (1 * (κ + 1 / κ)) * Real.exp (x / κ) := by
    intro x hx
    rcases hx.lt_or_eq with h | rfl
    · exact en x h
    · rw [ep 0 le_rfl]; simp
  refine ⟨?_, fun x => ?_, fun x y h hy => ?_, fun x y hx h => ?_, hr.one.1, hr.one.2, ?_⟩
  · unfold asymLaplacePdf
    refine continuous_const.mul (Real.continuous_exp.comp ?_)
    have e : (fun x : ℝ => if x < 0 then (x - 0) / (1 * κ) else -(x - 0) * κ / 1) =
        fun x => if (0 : ℝ) ≤ x then -(x - 0) * κ / 1 else (x - 0) / (1 * κ) := by
      funext x
      by_cases h : x < 0
      · rw [if_pos h, if_neg (not_le.2 h)]
      · rw [if_neg h, if_pos (not_lt.1 h)]
    rw [e]
    exact Continuous.if_le (by fun_prop) (by fun_prop) continuous_const continuous_id (by rintro x rfl; simp)
  · unfold asymLaplacePdf; positivity
  · rw [en x (by linarith), en' y hy]
    exact mul_lt_mul_of_pos_left (Real.exp_lt_exp.2 (div_lt_div_of_pos_right h hk)) hc
  · rw [ep x hx, ep y (by linarith)]
    exact mul_lt_mul_of_pos_left (Real.exp_lt_exp.2 (neg_lt_neg (mul_lt_mul_of_pos_right h hk))) hc
  · have h1 : Integrable fun x => |x * asymLaplacePdf κ 0 1 x| := hr.first.1.abs
    have h2 : Integrable fun x => x * asymLaplacePdf κ 0 1 x := hr.first.1
    have i1 := (h2.add h1).const_mul (1 / 2)
    have i2 := (h2.sub h1).const_mul (1 / 2)
    have h := ((hr.one.1.const_mul (Real.log (1 / (1 * (κ + 1 / κ))))).add (i2.const_mul (1 / κ))).sub (i1.const_mul κ)
    refine h.congr (ae_of_all _ fun x => ?_)
    simp only [Pi.sub_apply, Pi.add_apply]
    have hp : 0 < asymLaplacePdf κ 0 1 x := by unfold asymLaplacePdf; positivity
    rw [abs_mul, abs_of_pos hp]
    rcases lt_or_ge x 0 with hx | hx
    · rw [abs_of_neg hx, en x hx, Real.log_mul hc.ne' (Real.exp_pos _).ne', Real.log_exp]
      ring
    · rw [abs_of_nonneg hx, ep x hx, Real.log_mul hc.ne' (Real.exp_pos _).ne', Real.log_exp]
      ring

theorem shift_moved (F : ShiftFam) (hF : F.Ok) (m : ℝ) {s : ℝ} (hs : 0 < s) : F.pdf m s = moved (F.pdf 0 1) m s := by
  cases F with
  | peak F => exact fam_moved F m hs
  | gumbel =>
    funext x; simp only [ShiftFam.pdf, moved, gumbelPdf]
    rw [sub_zero, div_one]; ring
  | moyal =>
    funext x; simp only [ShiftFam.pdf, moved, moyalPdf]
    rw [sub_zero, div_one]; field_simp
  | asymmetricLaplace κ =>
    funext x; simp only [ShiftFam.pdf, moved, asymLaplacePdf]
    have hk : 0 < κ := hF
    have e : (x - m) / s < 0 ↔ x < m := by
      rw [div_neg_iff]
      constructor
      · rintro (h | h) <;> linarith
      · intro h; right; constructor <;> linarith
    simp only [sub_zero, one_mul, div_one, e]
    have e2 : (if x < m then (x - m) / s / κ else -((x - m) / s) * κ) =
        if x < m then (x - m) / (s * κ) else -(x - m) * κ / s := by
      split_ifs
      · rw [div_div]
      · ring
    rw [e2]
    field_simp
  | skewNormal al =>
    simp only [ShiftFam.pdf]
    rw [Verif.SkewLaw.skew_std al m hs, Verif.SkewLaw.skew_std al 0 one_pos]
    funext x
    simp only [moved]
    rw [sub_zero, div_one]; ring
  | skewStudentT a b =>
    simp only [ShiftFam.pdf]
    rw [Verif.SkewStudent.pdf_moved a b m]
    funext x
    simp only [moved]
    ring

theorem shift_hump (F : ShiftFam) (hF : F.Ok) : ∃ c, Humped (F.pdf 0 1) c := by
  cases F with
  | peak F => exact ⟨0, hump_peak (peak_fam F hF)⟩
  | gumbel => exact ⟨0, hump_gumbel⟩
  | moyal => exact ⟨0, hump_moyal⟩
  | asymmetricLaplace κ => exact ⟨0, hump_asym hF⟩
  | skewNormal al =>
    obtain ⟨c, h⟩ := Verif.SkewLaw.skew_hump al
    refine ⟨c, ?_⟩
    have e : skewNormalPdf al 0 1 = Verif.SkewLaw.skew al := by
      rw [Verif.SkewLaw.skew_std al 0 one_pos]
      funext x
      rw [sub_zero, div_one, one_mul, div_one]
    simp only [ShiftFam.pdf]
    rwa [e]
  | skewStudentT a b => exact Verif.SkewStudent.std_hump hF.1 hF.2

end Verif.Lemmas.MaxentHdi
