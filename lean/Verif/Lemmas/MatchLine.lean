import Verif.Spec.MatchLine
import Verif.Lemmas.MaxentHdi
import Verif.Lemmas.HalfScale

/-!
# Least-squares lines and quantiles
-/

namespace Verif.Lemmas.MatchLine
open MeasureTheory Set Filter Topology Verif.Spec Verif.LocScale Verif.Lemmas.MaxentHdi

/-! ### Sums over points -/

/-- sum over the points -/
noncomputable def tot (L : List (ℝ × ℝ)) (f : ℝ × ℝ → ℝ) : ℝ := (L.map f).sum

theorem tot_add (L : List (ℝ × ℝ)) (f g : ℝ × ℝ → ℝ) : tot L (fun p => f p + g p) = tot L f + tot L g := by
  induction L with
  | nil => simp [tot]
  | cons p L ih => simp only [tot, List.map_cons, List.sum_cons] at ih ⊢; rw [ih]; ring

theorem tot_mul (L : List (ℝ × ℝ)) (c : ℝ) (f : ℝ × ℝ → ℝ) : tot L (fun p => c * f p) = c * tot L f := by
  induction L with
  | nil => simp [tot]
  | cons p L ih => simp only [tot, List.map_cons, List.sum_cons] at ih ⊢; rw [ih]; ring

theorem tot_const (L : List (ℝ × ℝ)) (c : ℝ) : tot L (fun _ => c) = L.length * c := by simp [tot]

theorem tot_congr (L : List (ℝ × ℝ)) (f g : ℝ × ℝ → ℝ) (h : ∀ p ∈ L, f p = g p) : tot L f = tot L g := by
  unfold tot
  rw [List.map_congr_left h]

theorem tot_nonneg (L : List (ℝ × ℝ)) (f : ℝ × ℝ → ℝ) (h : ∀ p ∈ L, 0 ≤ f p) : 0 ≤ tot L f := by
  refine List.sum_nonneg fun x hx => ?_
  obtain ⟨p, hp, rfl⟩ := List.mem_map.1 hx
  exact h p hp

theorem tot_pos (L : List (ℝ × ℝ)) (f : ℝ × ℝ → ℝ) (h : ∀ p ∈ L, 0 ≤ f p) (p : ℝ × ℝ) (hp : p ∈ L) (h0 : 0 < f p) :
    0 < tot L f := by
  induction L with
  | nil => simp at hp
  | cons q L ih =>
    have e : tot (q :: L) f = f q + tot L f := by simp [tot]
    rw [e]
    have h1 := tot_nonneg L f fun p hp => h p (by simp [hp])
    have h2 := h q (by simp)
    rcases List.mem_cons.1 hp with rfl | hp
    · linarith
    · have := ih (fun p hp => h p (by simp [hp])) hp
      linarith

variable (L : List (ℝ × ℝ))

/-- averages and sums of products of deviations -/
noncomputable def zm : ℝ := tot L Prod.fst / L.length
noncomputable def tm : ℝ := tot L Prod.snd / L.length
noncomputable def szz : ℝ := tot L fun p => (p.1 - zm L) ^ 2
noncomputable def szt : ℝ := tot L fun p => (p.1 - zm L) * (p.2 - tm L)
noncomputable def stt : ℝ := tot L fun p => (p.2 - tm L) ^ 2

theorem dev_z (h : L ≠ []) : tot L (fun p => p.1 - zm L) = 0 := by
  have e : (fun p : ℝ × ℝ => p.1 - zm L) = fun p => p.1 + (-zm L) := by funext p; ring
  have hl : (L.length : ℝ) ≠ 0 := by simpa using h
  rw [e, tot_add, tot_const, zm]
  field_simp
  ring

theorem dev_t (h : L ≠ []) : tot L (fun p => p.2 - tm L) = 0 := by
  have e : (fun p : ℝ × ℝ => p.2 - tm L) = fun p => p.2 + (-tm L) := by funext p; ring
  have hl : (L.length : ℝ) ≠ 0 := by simpa using h
  rw [e, tot_add, tot_const, tm]
  field_simp
  ring

/-- the sum of squares around a line -/
theorem expand (h : L ≠ []) (m s : ℝ) :
    tot L (fun p => (m + s * p.1 - p.2) ^ 2) =
      L.length * (m + s * zm L - tm L) ^ 2 + s ^ 2 * szz L - 2 * s * szt L + stt L := by
  have e : (fun p : ℝ × ℝ => (m + s * p.1 - p.2) ^ 2) = fun p =>
      (((m + s * zm L - tm L) ^ 2 + s ^ 2 * (p.1 - zm L) ^ 2) + (-2 * s) * ((p.1 - zm L) * (p.2 - tm L)) +
        (p.2 - tm L) ^ 2) + ((2 * (m + s * zm L - tm L) * s) * (p.1 - zm L) +
          (-2 * (m + s * zm L - tm L)) * (p.2 - tm L)) := by
    funext p; ring
  rw [e, tot_add, tot_add, tot_add, tot_add, tot_add, tot_mul, tot_mul, tot_mul, tot_mul, tot_const, dev_z L h, dev_t L h]
  unfold szz szt stt
  ring

theorem szz_pos (p q : ℝ × ℝ) (hp : p ∈ L) (hq : q ∈ L) (hne : p.1 ≠ q.1) : 0 < szz L := by
  by_cases h : p.1 = zm L
  · exact tot_pos L _ (fun p _ => sq_nonneg _) q hq (by
      have : q.1 - zm L ≠ 0 := sub_ne_zero.2 fun e => hne (h.trans e.symm)
      positivity)
  · exact tot_pos L _ (fun p _ => sq_nonneg _) p hp (by
      have : p.1 - zm L ≠ 0 := sub_ne_zero.2 h
      positivity)

/-- the smallest sum of squares among the lines with slope at least `e` -/
theorem line_least (h : L ≠ []) (hz : 0 < szz L) (e m s : ℝ) (hs : e ≤ s) :
    tot L (fun p => (tm L - max e (szt L / szz L) * zm L + max e (szt L / szz L) * p.1 - p.2) ^ 2) ≤
      tot L (fun p => (m + s * p.1 - p.2) ^ 2) ∧
    (tot L (fun p => (m + s * p.1 - p.2) ^ 2) ≤
      tot L (fun p => (tm L - max e (szt L / szz L) * zm L + max e (szt L / szz L) * p.1 - p.2) ^ 2) →
      s = max e (szt L / szz L) ∧ m = tm L - max e (szt L / szz L) * zm L) := by
  have hl : (0 : ℝ) < L.length := by
    have := List.length_pos_of_ne_nil h
    exact_mod_cast this
  rw [expand L h, expand L h]
  have hb : szt L = szt L / szz L * szz L := by field_simp
  generalize szt L / szz L = b at *
  rw [hb]
  have key : (max e b - b) ^ 2 ≤ (s - b) ^ 2 ∧ ((s - b) ^ 2 ≤ (max e b - b) ^ 2 → s = max e b) := by
    rcases le_total e b with h' | h'
    · rw [max_eq_right h', sub_self]
      refine ⟨by rw [zero_pow two_ne_zero]; exact sq_nonneg _, fun h2 => ?_⟩
      have : (s - b) ^ 2 = 0 := le_antisymm (by simpa using h2) (sq_nonneg _)
      have := pow_eq_zero_iff (two_ne_zero) |>.1 this
      linarith
    · rw [max_eq_left h']
      refine ⟨by nlinarith, fun h2 => ?_⟩
      nlinarith
  have c0 : tm L - max e b * zm L + max e b * zm L - tm L = 0 := by ring
  rw [c0]
  have hc := mul_nonneg hl.le (sq_nonneg (m + s * zm L - tm L))
  have hd := mul_le_mul_of_nonneg_left key.1 hz.le
  refine ⟨by nlinarith, fun h2 => ?_⟩
  have h3 : (L.length : ℝ) * (m + s * zm L - tm L) ^ 2 + szz L * (s - b) ^ 2 ≤ szz L * (max e b - b) ^ 2 := by nlinarith
  have h4 : s = max e b := key.2 (le_of_mul_le_mul_left (by linarith) hz)
  refine ⟨h4, ?_⟩
  have h5 : (m + s * zm L - tm L) ^ 2 = 0 := by
    rw [h4] at h3 ⊢
    have : (L.length : ℝ) * (m + max e b * zm L - tm L) ^ 2 ≤ 0 := by linarith
    have h6 := sq_nonneg (m + max e b * zm L - tm L)
    nlinarith
  have h6 := pow_eq_zero_iff (two_ne_zero) |>.1 h5
  rw [h4] at h6
  linarith

/-- twice the number of points times `szt` is the sum over pairs of points -/
theorem szt_pairs (h : L ≠ []) :
    tot L (fun p => tot L fun q => (p.1 - q.1) * (p.2 - q.2)) = 2 * L.length * szt L := by
  have e : ∀ p ∈ L, tot L (fun q => (p.1 - q.1) * (p.2 - q.2)) =
      (L.length * ((p.1 - zm L) * (p.2 - tm L)) + szt L) := by
    intro p _
    have e1 : (fun q : ℝ × ℝ => (p.1 - q.1) * (p.2 - q.2)) = fun q =>
        ((p.1 - zm L) * (p.2 - tm L) + (q.1 - zm L) * (q.2 - tm L)) +
          (-(p.1 - zm L) * (q.2 - tm L) + -(p.2 - tm L) * (q.1 - zm L)) := by
      funext q; ring
    rw [e1, tot_add, tot_add, tot_add, tot_mul L (-(p.1 - zm L)), tot_mul L (-(p.2 - tm L)), tot_const, dev_z L h, dev_t L h]
    unfold szt
    ring
  rw [tot_congr L _ _ e, tot_add, tot_mul, tot_const]
  unfold szt
  ring

/-- increasing points give an increasing line -/
theorem szt_pos (hmono : ∀ p ∈ L, ∀ q ∈ L, 0 ≤ (p.1 - q.1) * (p.2 - q.2)) (p q : ℝ × ℝ) (hp : p ∈ L) (hq : q ∈ L)
    (hlt : 0 < (p.1 - q.1) * (p.2 - q.2)) : 0 < szt L := by
  have hL : L ≠ [] := List.ne_nil_of_mem hp
  have hl : (0 : ℝ) < L.length := by
    have := List.length_pos_of_ne_nil hL
    exact_mod_cast this
  have h1 : 0 < tot L (fun p => tot L fun q => (p.1 - q.1) * (p.2 - q.2)) :=
    tot_pos L _ (fun p hp => tot_nonneg L _ fun q hq => hmono p hp q hq) p hp
      (tot_pos L _ (fun q hq => hmono p hp q hq) q hq hlt)
  rw [szt_pairs L hL] at h1
  exact pos_of_mul_pos_right h1 (by positivity)

/-! ### From lists to points -/

theorem zip_tot {a : List ℝ} : ∀ {b : List ℝ}, a.length = b.length → ∀ f : ℝ → ℝ → ℝ,
    (List.zipWith f a b).sum = tot (a.zip b) fun p => f p.1 p.2 := by
  induction a with
  | nil => intro b _ f; simp [tot]
  | cons x a ih =>
    intro b h f
    cases b with
    | nil => simp at h
    | cons y b =>
      have := ih (b := b) (by simpa using h) f
      simp only [tot] at this
      simp [tot, this]

theorem zip_fst {a b : List ℝ} (h : a.length = b.length) : tot (a.zip b) Prod.fst = a.sum := by
  unfold tot
  rw [List.map_fst_zip h.le]

theorem zip_snd {a b : List ℝ} (h : a.length = b.length) : tot (a.zip b) Prod.snd = b.sum := by
  unfold tot
  rw [List.map_snd_zip h.ge]

theorem zip_zm {a b : List ℝ} (h : a.length = b.length) : zm (a.zip b) = meanOf a := by
  unfold zm meanOf
  rw [zip_fst h, List.length_zip, h, min_self]

theorem zip_tm {a b : List ℝ} (h : a.length = b.length) : tm (a.zip b) = meanOf b := by
  unfold tm meanOf
  rw [zip_snd h, List.length_zip, h, min_self]

theorem zip_self_tot (a b : List ℝ) (h : a.length = b.length) (f : ℝ → ℝ → ℝ) :
    (List.zipWith f a a).sum = tot (a.zip b) fun p => f p.1 p.1 := by
  have : List.zipWith f a a = a.map fun x => f x x := by
    simp [List.zipWith_self]
  rw [this]
  unfold tot
  have e : (a.zip b).map (fun p => f p.1 p.1) = ((a.zip b).map Prod.fst).map fun x => f x x := by
    rw [List.map_map]; rfl
  rw [e, List.map_fst_zip h.le]

theorem zip_szt {a b : List ℝ} (h : a.length = b.length) : szt (a.zip b) = spread a b := by
  unfold szt spread
  rw [zip_tot h, zip_zm h, zip_tm h]

theorem zip_szz {a b : List ℝ} (h : a.length = b.length) : szz (a.zip b) = spread a a := by
  unfold szz spread
  rw [zip_self_tot a b h, zip_zm h]
  refine tot_congr _ _ _ fun p _ => by ring

theorem zip_slope {a b : List ℝ} (h : a.length = b.length) : szt (a.zip b) / szz (a.zip b) = lineSlope a b := by
  rw [zip_szt h, zip_szz h, lineSlope]

theorem meanOf_affine (l : List ℝ) (h : l ≠ []) (a b : ℝ) : meanOf (l.map fun x => a + b * x) = a + b * meanOf l := by
  have hl : (l.length : ℝ) ≠ 0 := by simpa using h
  have e : (l.map fun x => a + b * x).sum = l.length * a + b * l.sum := by
    clear h hl
    induction l with
    | nil => simp
    | cons x l ih => simp only [List.map_cons, List.sum_cons, List.length_cons, ih]; push_cast; ring
  unfold meanOf
  rw [e, List.length_map]
  field_simp

theorem spread_affine (z t : List ℝ) (h : t ≠ []) (a b : ℝ) : spread z (t.map fun x => a + b * x) = b * spread z t := by
  unfold spread
  rw [meanOf_affine t h, List.zipWith_map_right]
  generalize meanOf z = u
  generalize meanOf t = v
  clear h
  induction z generalizing t with
  | nil => simp
  | cons x z ih =>
    cases t with
    | nil => simp
    | cons y t =>
      simp only [List.zipWith_cons_cons, List.sum_cons, ih]
      ring

theorem lineSlope_affine (z t : List ℝ) (h : t ≠ []) (a b : ℝ) :
    lineSlope z (t.map fun x => a + b * x) = b * lineSlope z t := by
  unfold lineSlope
  rw [spread_affine z t h, mul_div_assoc]

/-- the sum of squares around a line through the origin -/
theorem expand0 (s : ℝ) : tot L (fun p => (s * p.1 - p.2) ^ 2) =
    s ^ 2 * tot L (fun p => p.1 ^ 2) - 2 * s * tot L (fun p => p.1 * p.2) + tot L fun p => p.2 ^ 2 := by
  have e : (fun p : ℝ × ℝ => (s * p.1 - p.2) ^ 2) = fun p =>
      s ^ 2 * p.1 ^ 2 + (-2 * s) * (p.1 * p.2) + p.2 ^ 2 := by
    funext p; ring
  rw [e, tot_add, tot_add, tot_mul, tot_mul]
  ring

theorem zip_slope0 {a b : List ℝ} (h : a.length = b.length) :
    tot (a.zip b) (fun p => p.1 * p.2) / tot (a.zip b) (fun p => p.1 ^ 2) = lineSlope0 a b := by
  unfold lineSlope0
  have := zip_self_tot a b h fun x y => x * y
  rw [zip_tot h]
  congr 1
  have e : List.zipWith (fun x y => x * y) a a = a.map fun x => x ^ 2 := by
    simp [List.zipWith_self, pow_two]
  rw [← e, this]
  exact tot_congr _ _ _ fun p _ => by ring

theorem line0_least (hz : 0 < tot L fun p => p.1 ^ 2) (s : ℝ)
    (h : tot L (fun p => (s * p.1 - p.2) ^ 2) ≤
      tot L (fun p => (tot L (fun p => p.1 * p.2) / tot L (fun p => p.1 ^ 2) * p.1 - p.2) ^ 2)) :
    s = tot L (fun p => p.1 * p.2) / tot L (fun p => p.1 ^ 2) := by
  rw [expand0 L s, expand0 L] at h
  have hb : tot L (fun p => p.1 * p.2) = tot L (fun p => p.1 * p.2) / tot L (fun p => p.1 ^ 2) * tot L fun p => p.1 ^ 2 := by
    field_simp
  generalize tot L (fun p => p.1 * p.2) / tot L (fun p => p.1 ^ 2) = b at *
  rw [hb] at h
  have h2 : (tot L fun p => p.1 ^ 2) * (s - b) ^ 2 ≤ 0 := by nlinarith
  have h3 : (s - b) ^ 2 = 0 := le_antisymm (nonpos_of_mul_nonpos_right h2 hz) (sq_nonneg _)
  have := pow_eq_zero_iff (two_ne_zero) |>.1 h3
  linarith

/-! ### Quantiles -/

variable {g : ℝ → ℝ} {c : ℝ}

theorem cdf_hump (hg : Humped g c) (m : ℝ) {s : ℝ} (hs : 0 < s) (x : ℝ) :
    (ofPdf (moved g m s)).real (Iic x) = upTo g ((x - m) / s) := by
  have h1 : Integrable fun x => g (x / s) := hg.int.comp_div hs.ne'
  have hi : Integrable (moved g m s) := (h1.comp_sub_right m).div_const s
  have h0 : ∀ y, 0 ≤ moved g m s y := fun y => div_nonneg (hg.pos _).le hs.le
  have e1 : (ofPdf (moved g m s)).real (Iic x) = ∫ y in Iic x, moved g m s y := by
    unfold ofPdf Measure.real
    rw [withDensity_apply _ measurableSet_Iic, ← ofReal_integral_eq_lintegral_ofReal hi.integrableOn
      (Eventually.of_forall h0), ENNReal.toReal_ofReal (setIntegral_nonneg measurableSet_Iic fun x _ => h0 x)]
  rw [e1, upTo]
  have l1 := intervalIntegral_tendsto_integral_Iic (a := fun t : ℝ => m - s * t) x hi.integrableOn
    (show Tendsto (fun t : ℝ => m - s * t) atTop atBot from
      tendsto_atBot_add_const_left atTop m (tendsto_neg_atTop_atBot.comp (tendsto_id.const_mul_atTop hs)))
  have l2 := intervalIntegral_tendsto_integral_Iic (a := fun t : ℝ => -t) ((x - m) / s) hg.int.integrableOn
    tendsto_neg_atTop_atBot
  refine tendsto_nhds_unique (l1.congr fun t => ?_) l2
  unfold moved
  rw [intervalIntegral.integral_div, intervalIntegral.integral_comp_sub_right (fun x => g (x / s)) m,
    intervalIntegral.integral_comp_div g hs.ne', smul_eq_mul, mul_comm, mul_div_assoc, div_self hs.ne', mul_one]
  congr 1
  field_simp
  ring

theorem upTo_hump_mono (hg : Humped g c) : StrictMono (upTo g) := by
  intro a b hab
  have : (∫ y in Iic b, g y) - ∫ y in Iic a, g y = ∫ y in a..b, g y :=
    intervalIntegral.integral_Iic_sub_Iic hg.int.integrableOn hg.int.integrableOn
  have p : 0 < ∫ y in a..b, g y := area_pos hg hab
  unfold upTo
  linarith

/-- the distribution function of a member of the family -/
theorem cdf_member (F : ShiftFam) (hF : F.Ok) (m : ℝ) {s : ℝ} (hs : 0 < s) (x : ℝ) :
    (ofPdf (F.pdf m s)).real (Iic x) = upTo (F.pdf 0 1) ((x - m) / s) := by
  rw [shift_moved F hF m hs, cdf_hump (shift_hump F hF).choose_spec m hs]

/-- the quantiles of a member are those of the standard member, stretched and moved -/
theorem quantile_member (F : ShiftFam) (hF : F.Ok) (m : ℝ) {s : ℝ} (hs : 0 < s) {q x z : ℝ}
    (hx : (ofPdf (F.pdf m s)).real (Iic x) = q) (hz : (ofPdf (F.pdf 0 1)).real (Iic z) = q) : x = m + s * z := by
  rw [cdf_member F hF m hs] at hx
  rw [cdf_member F hF 0 one_pos, sub_zero, div_one] at hz
  have := (upTo_hump_mono (shift_hump F hF).choose_spec).injective (hx.trans hz.symm)
  rw [div_eq_iff hs.ne'] at this
  linarith

theorem quantile_iff (F : ShiftFam) (hF : F.Ok) (m : ℝ) {s : ℝ} (hs : 0 < s) {q x z : ℝ}
    (hz : (ofPdf (F.pdf 0 1)).real (Iic z) = q) : (ofPdf (F.pdf m s)).real (Iic x) = q ↔ x = m + s * z := by
  refine ⟨fun hx => quantile_member F hF m hs hx hz, fun hx => ?_⟩
  rw [cdf_member F hF 0 one_pos, sub_zero, div_one] at hz
  rw [cdf_member F hF m hs, hx, add_sub_cancel_left, mul_div_cancel_left₀ _ hs.ne', hz]

/-- higher levels have higher quantiles -/
theorem quantile_lt (F : ShiftFam) (hF : F.Ok) {p q x y : ℝ} (hx : (ofPdf (F.pdf 0 1)).real (Iic x) = p)
    (hy : (ofPdf (F.pdf 0 1)).real (Iic y) = q) : x < y ↔ p < q := by
  rw [← hx, ← hy, cdf_member F hF 0 one_pos, cdf_member F hF 0 one_pos, sub_zero, sub_zero, div_one, div_one,
    (upTo_hump_mono (shift_hump F hF).choose_spec).lt_iff_lt]

/-- the quantiles of a member on the half line are those of the standard member, stretched -/
theorem quantile_half (F : HalfFam) (hF : F.Ok) {s : ℝ} (hs : 0 < s) {q x z : ℝ} (hx0 : 0 ≤ x) (hz0 : 0 ≤ z)
    (hx : (ofPdf (F.pdf s)).real (Iic x) = q) (hz : (ofPdf (F.pdf 1)).real (Iic z) = q) : x = s * z := by
  have hg := Verif.HalfScale.unfolded_peak F hF
  rw [Verif.HalfScale.half_folded F hF hs, Verif.HalfScale.cdf_folded hg hs hx0] at hx
  rw [Verif.HalfScale.half_folded F hF one_pos, Verif.HalfScale.cdf_folded hg one_pos hz0, div_one] at hz
  have := (around_mono hg 0).injective (hx.trans hz.symm)
  rw [div_eq_iff hs.ne'] at this
  linarith

end Verif.Lemmas.MatchLine
