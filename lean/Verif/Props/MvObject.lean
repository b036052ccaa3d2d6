import Verif.Model.MvObject
import Verif.Props.Joint
import Verif.Props.Multivariate
import Verif.Lemmas.BetaMoments

/-!
# C103: what Dirichlet and MvNormal objects report, and interactive sessions
-/

namespace Verif.Props
open Verif Verif.Multivariate Verif.MvObject Verif.Spec
open MeasureTheory ProbabilityTheory

/-! ## MvNormal -/

private theorem inv_ok {n : ℕ} {cov tau : Matrix (Fin n) (Fin n) ℝ} (h : cov * tau = 1) :
    npInv cov = .ok tau ∧ npInv tau = .ok cov := by
  have h' : tau * cov = 1 := mul_eq_one_comm.1 h
  have hc : cov.det ≠ 0 := by
    intro h0
    have := congrArg Matrix.det h
    rw [Matrix.det_mul, h0] at this; simp at this
  have ht : tau.det ≠ 0 := by
    intro h0
    have := congrArg Matrix.det h
    rw [Matrix.det_mul, h0] at this; simp at this
  exact ⟨by unfold npInv; rw [if_neg hc, Matrix.inv_eq_right_inv h],
    by unfold npInv; rw [if_neg ht, Matrix.inv_eq_right_inv h']⟩

private theorem live_cov {n : ℕ} (mu : Fin n → ℝ) {cov tau : Matrix (Fin n) (Fin n) ℝ} (h : cov * tau = 1)
    (hp : cov.PosSemidef) :
    mvLive (some mu) (some cov) none = .ok ⟨⟨some mu, some cov, some tau, "cov", some cov⟩, some (mu, cov)⟩ := by
  simp [mvLive, mvNormal, mvUpdate, (inv_ok h).1, mvFreeze, hp]

private theorem live_tau {n : ℕ} (mu : Fin n → ℝ) {cov tau : Matrix (Fin n) (Fin n) ℝ} (h : cov * tau = 1)
    (hp : cov.PosSemidef) :
    mvLive (some mu) none (some tau) = .ok ⟨⟨some mu, some cov, some tau, "tau", some tau⟩, some (mu, cov)⟩ := by
  simp [mvLive, mvNormal, mvUpdate, (inv_ok h).1, (inv_ok h).2, mvFreeze, hp]

/-- The mean and standard deviation in the summary of an MvNormal, and its variances, are those of the coordinates, whether
the covariance or the precision matrix was given. -/
theorem mvnormal_summary_law {n : ℕ} (mu : EuclideanSpace ℝ (Fin n)) (cov tau : Matrix (Fin n) (Fin n) ℝ)
    (h : cov * tau = 1) (hp : cov.PosSemidef) (o : MvLive n)
    (ho : mvLive (some (mu : Fin n → ℝ)) (some cov) none = .ok o ∨ mvLive (some (mu : Fin n → ℝ)) none (some tau) = .ok o) :
    ∃ m sd v, mvSummary o = .ok (m, sd) ∧ mvVar o = .ok v ∧ ∀ i,
      m i = ∫ x, x i ∂(multivariateGaussian mu cov) ∧ 0 ≤ sd i ∧
      sd i ^ 2 = Var[fun x => x i; multivariateGaussian mu cov] ∧
      v i = Var[fun x => x i; multivariateGaussian mu cov] := by
  have hval : mvSummary o = .ok (mu, fun i => Real.sqrt (cov i i)) ∧ mvVar o = .ok (fun i => cov i i) := by
    rcases ho with ho | ho
    · rw [live_cov _ h hp] at ho
      injection ho with ho
      subst ho
      simp [mvSummary, mvVar]
    · rw [live_tau _ h hp] at ho
      injection ho with ho
      subst ho
      simp [mvSummary, mvVar]
  refine ⟨_, _, _, hval.1, hval.2, fun i => ?_⟩
  have hd : 0 ≤ cov i i := hp.diag_nonneg
  have hv : Var[fun x => x i; multivariateGaussian mu cov] = cov i i := variance_eval_multivariateGaussian hp i
  refine ⟨?_, Real.sqrt_nonneg _, by rw [hv, Real.sq_sqrt hd], hv.symm⟩
  have hm := measurePreserving_eval_multivariateGaussian (μ := mu) hp (i := i)
  have h2 : ∫ y, y ∂((multivariateGaussian mu cov).map fun x => x i) = ∫ x, x i ∂(multivariateGaussian mu cov) :=
    integral_map hm.measurable.aemeasurable (by fun_prop)
  rw [← h2, hm.map_eq, integral_id_gaussianReal]

/-- The attributes of an MvNormal: `mu` and the mode are its mean, `cov` is its covariance matrix and `tau` the inverse. -/
theorem mvnormal_attributes {n : ℕ} (mu : EuclideanSpace ℝ (Fin n)) (cov tau : Matrix (Fin n) (Fin n) ℝ)
    (h : cov * tau = 1) (hp : cov.PosSemidef) (o : MvLive n)
    (ho : mvLive (some (mu : Fin n → ℝ)) (some cov) none = .ok o ∨ mvLive (some (mu : Fin n → ℝ)) none (some tau) = .ok o) :
    mvMode o = some (mu : Fin n → ℝ) ∧ ∃ c t, o.obj.cov = some c ∧ o.obj.tau = some t ∧ c * t = 1 ∧
      ∀ i j, c i j = cov[fun x => x i, fun x => x j; multivariateGaussian mu cov] := by
  rcases ho with ho | ho
  · rw [live_cov _ h hp] at ho
    injection ho with ho
    subst ho
    exact ⟨rfl, _, _, rfl, rfl, h, fun i j => (covariance_eval_multivariateGaussian hp i j).symm⟩
  · rw [live_tau _ h hp] at ho
    injection ho with ho
    subst ho
    exact ⟨rfl, _, _, rfl, rfl, h, fun i j => (covariance_eval_multivariateGaussian hp i j).symm⟩

/-- negation for `mean()`: it fails for every MvNormal, with a TypeError for a specified one -/
theorem mvnormal_mean_raises {n : ℕ} (mu : Option (Fin n → ℝ)) (cov tau : Option (Matrix (Fin n) (Fin n) ℝ)) (o : MvLive n)
    (_ : mvLive mu cov tau = .ok o) :
    mvMean o = if o.frozen.isSome then .error .typeError else .error .attributeError := by
  unfold mvMean
  cases o.frozen <;> rfl

/-- An MvNormal has a frozen distribution only for a regular positive semidefinite covariance matrix; any other is
refused. -/
theorem mvnormal_frozen_valid {n : ℕ} (mu : Option (Fin n → ℝ)) (cov tau : Option (Matrix (Fin n) (Fin n) ℝ)) (o : MvLive n)
    (ho : mvLive mu cov tau = .ok o) (m : Fin n → ℝ) (c : Matrix (Fin n) (Fin n) ℝ) (hf : o.frozen = some (m, c)) :
    mu = some m ∧ o.obj.mu = some m ∧ o.obj.cov = some c ∧ c.PosSemidef ∧ c.det ≠ 0 ∧ (cov = some c ∨ ∃ t, tau = some t ∧
      c * t = 1) := by
  have hdet : ∀ (a b : Matrix (Fin n) (Fin n) ℝ), npInv a = .ok b → a.det ≠ 0 ∧ b * a = 1 := by
    intro a b hab
    unfold npInv at hab
    split at hab
    · simp at hab
    · rename_i hd
      injection hab with hab
      subst hab
      exact ⟨hd, Matrix.nonsing_inv_mul a (isUnit_iff_ne_zero.2 hd)⟩
  unfold mvLive at ho
  cases mu with
  | none =>
    exfalso
    cases cov with
    | none =>
      cases tau with
      | none => simp [mvNormal, mvFreeze] at ho; subst ho; simp at hf
      | some t =>
        cases hi : npInv t with
        | error e => simp [mvNormal, hi] at ho
        | ok c' => simp [mvNormal, hi, mvFreeze] at ho; subst ho; simp at hf
    | some c' =>
      cases tau with
      | none => simp [mvNormal, mvFreeze] at ho; subst ho; simp at hf
      | some t => simp [mvNormal] at ho
  | some mu =>
    cases cov with
    | none =>
      cases tau with
      | none => simp [mvNormal, mvFreeze] at ho; subst ho; simp at hf
      | some t =>
        cases hi : npInv t with
        | error e => simp [mvNormal, hi] at ho
        | ok c' =>
          cases hj : npInv c' with
          | error e => simp [mvNormal, hi, mvUpdate, hj] at ho
          | ok t' =>
            simp only [mvNormal, hi, mvUpdate, hj, Except.ok_bind', Except.pure_eq, mvFreeze] at ho
            split at ho
            · rename_i hp
              injection ho with ho
              subst ho
              simp only [Option.some.injEq, Prod.mk.injEq] at hf
              obtain ⟨rfl, rfl⟩ := hf
              exact ⟨rfl, rfl, rfl, hp, (hdet _ _ hj).1, Or.inr ⟨t, rfl, (hdet _ _ hi).2⟩⟩
            · simp at ho
    | some c' =>
      cases tau with
      | none =>
        cases hj : npInv c' with
        | error e => simp [mvNormal, mvUpdate, hj] at ho
        | ok t' =>
          simp only [mvNormal, mvUpdate, hj, Except.ok_bind', Except.pure_eq, mvFreeze] at ho
          split at ho
          · rename_i hp
            injection ho with ho
            subst ho
            simp only [Option.some.injEq, Prod.mk.injEq] at hf
            obtain ⟨rfl, rfl⟩ := hf
            exact ⟨rfl, rfl, rfl, hp, (hdet _ _ hj).1, Or.inl rfl⟩
          · simp at ho
      | some t => simp [mvNormal] at ho

/-- Without a mean or a matrix the object is not specified: the summary is refused with a ValueError, the other questions
with an AttributeError, and so is an interactive session. -/
theorem mvnormal_unset {n : ℕ} (mu : Fin n → ℝ) (cov : Matrix (Fin n) (Fin n) ℝ) (moves : List (Fin n → ℝ)) (o : MvLive n)
    (ho : mvLive (n := n) none none none = .ok o ∨ mvLive (some mu) none none = .ok o ∨
      mvLive none (some cov) none = .ok o) :
    mvSummary o = .error .valueError ∧ mvVar o = .error .attributeError ∧ mvMean o = .error .attributeError ∧
      mvSession o moves = .error .attributeError := by
  rcases ho with ho | ho | ho <;> simp [mvLive, mvNormal, mvFreeze] at ho <;> subst ho <;>
    simp [mvSummary, mvVar, mvMean, mvSession, mvKept]

private theorem foldlM_last {α β : Type} (f : β → Except Err α) (a : α) (l : List β) (b : β)
    (hf : ∀ x ∈ l ++ [b], ∃ y, f x = .ok y) : (l ++ [b]).foldlM (fun _ x => f x) a = f b := by
  induction l generalizing a with
  | nil =>
    simp only [List.nil_append, List.foldlM_cons, List.foldlM_nil]
    obtain ⟨y, hy⟩ := hf b (by simp)
    simp [hy]
  | cons x xs ih =>
    obtain ⟨y, hy⟩ := hf x (by simp)
    simp only [List.cons_append, List.foldlM_cons, hy, Except.ok_bind']
    exact ih y fun z hz => hf z (by simp at hz ⊢; tauto)

/-- Interactive sessions only change the mean: after any movements of the sliders the object is the one built from the last
means and the matrix given at the start, in the same parametrisation. -/
theorem mvnormal_session {n : ℕ} (mu last : Fin n → ℝ) (cov tau : Matrix (Fin n) (Fin n) ℝ) (h : cov * tau = 1)
    (hp : cov.PosSemidef) (moves : List (Fin n → ℝ)) :
    (mvLive (some mu) (some cov) none >>= fun o => mvSession o (moves ++ [last])) =
      mvLive (some last) (some cov) none ∧
    (mvLive (some mu) none (some tau) >>= fun o => mvSession o (moves ++ [last])) =
      mvLive (some last) none (some tau) := by
  constructor
  · rw [live_cov mu h hp]
    simp only [Except.ok_bind', mvSession, mvKept, if_true, live_cov mu h hp]
    exact foldlM_last (fun m => mvLive (some m) (some cov) none) _ moves last
      (fun x _ => ⟨_, live_cov x h hp⟩)
  · rw [live_tau mu h hp]
    have hne : ¬ ("tau" = "cov") := by decide
    simp only [Except.ok_bind', mvSession, mvKept, hne, if_false, live_tau mu h hp]
    exact foldlM_last (fun m => mvLive (some m) none (some tau)) _ moves last
      (fun x _ => ⟨_, live_tau x h hp⟩)

/-- a bivariate normal with correlation, given by its covariance or its precision -/
example : (!![2, 1; 1, 1] : Matrix (Fin 2) (Fin 2) ℝ) * !![1, -1; -1, 2] = 1 ∧
    (!![2, 1; 1, 1] : Matrix (Fin 2) (Fin 2) ℝ).PosSemidef := by
  constructor
  · ext i j
    fin_cases i <;> fin_cases j <;> simp [Matrix.mul_apply, Fin.sum_univ_two] <;> norm_num
  · have : (!![2, 1; 1, 1] : Matrix (Fin 2) (Fin 2) ℝ) =
        (!![1, 1; 1, 0] : Matrix (Fin 2) (Fin 2) ℝ).conjTranspose * !![1, 1; 1, 0] := by
      ext i j
      fin_cases i <;> fin_cases j <;> simp [Matrix.mul_apply, Fin.sum_univ_two] <;> norm_num
    rw [this]
    exact Matrix.posSemidef_conjTranspose_mul_self _

/-! ## Dirichlet -/

private theorem dir_ok {n : ℕ} {alpha : Fin n → ℝ} (h : ∀ i, 0 < alpha i) :
    dirLive (some alpha) = .ok ⟨some alpha, some alpha⟩ := by
  simp [dirLive, h]

/-- The mean, variance and the summary of a Dirichlet are those of the coordinates of its law, in every dimension. -/
theorem dirichlet_summary_law {n : ℕ} (alpha : Fin n → ℝ) (hn : 0 < n) (h : ∀ i, 0 < alpha i) (o : DirLive n)
    (ho : dirLive (some alpha) = .ok o) :
    ∃ m sd v, dirSummary o = .ok (m, sd) ∧ dirMean o = .ok m ∧ dirVar o = .ok v ∧ ∀ i,
      m i = ∫ x, x i ∂(dirichletLaw alpha) ∧ 0 ≤ sd i ∧ sd i ^ 2 = Var[fun x => x i; dirichletLaw alpha] ∧
      v i = Var[fun x => x i; dirichletLaw alpha] := by
  rw [dir_ok h] at ho
  injection ho with ho
  subst ho
  have : Nonempty (Fin n) := ⟨⟨0, hn⟩⟩
  have hs : 0 < ∑ j, alpha j := Finset.sum_pos (fun i _ => h i) Finset.univ_nonempty
  have hP := (dirichlet_coordinates alpha hn h).1
  have hae := (dirichlet_coordinates alpha hn h).2
  have hval : ∀ i, ∫ x, x i ∂(dirichletLaw alpha) = alpha i / ∑ j, alpha j ∧
      Var[fun x => x i; dirichletLaw alpha] =
        alpha i * (∑ j, alpha j - alpha i) / ((∑ j, alpha j) * (∑ j, alpha j) * (∑ j, alpha j + 1)) := by
    intro i
    by_cases h2 : 2 ≤ n
    · have hlaw := dirichlet_marginal_law alpha h2 h i
      simp only [dirichletMarginal] at hlaw
      have hrest : 0 < ∑ j, alpha j - alpha i := by
        rw [← Finset.add_sum_erase Finset.univ alpha (Finset.mem_univ i)]
        have hne : (Finset.univ.erase i).Nonempty := by
          rw [← Finset.card_pos, Finset.card_erase_of_mem (Finset.mem_univ i), Finset.card_univ, Fintype.card_fin]
          omega
        have := Finset.sum_pos (fun j _ => h j) hne
        linarith
      have e : alpha i + (∑ j, alpha j - alpha i) = ∑ j, alpha j := by ring
      have hm : AEMeasurable (fun x : Fin n → ℝ => x i) (dirichletLaw alpha) := (measurable_pi_apply i).aemeasurable
      constructor
      · have h1 : ∫ y, y ∂((dirichletLaw alpha).map fun x => x i) = ∫ x, x i ∂(dirichletLaw alpha) :=
          integral_map hm (by fun_prop)
        rw [← h1, hlaw, BetaMoments.mean _ _ (h i) hrest, e]
      · have h1 : Var[fun y => y; (dirichletLaw alpha).map fun x => x i] = Var[fun x => x i; dirichletLaw alpha] := by
          rw [variance_map (by fun_prop) hm]
          rfl
        rw [← h1, hlaw, BetaMoments.variance _ _ (h i) hrest, e]
        ring
    · obtain rfl : n = 1 := by omega
      have hi : i = 0 := Subsingleton.elim _ _
      subst hi
      have hone : ∀ᵐ x ∂dirichletLaw alpha, x 0 = (1 : ℝ) := by
        filter_upwards [hae] with x hx
        simpa using hx.2
      have hae' : (fun x : Fin 1 → ℝ => x 0) =ᵐ[dirichletLaw alpha] fun _ => (1 : ℝ) := hone
      constructor
      · rw [integral_congr_ae hae']
        simp [(h 0).ne']
      · rw [variance_congr hae', variance_eq_integral (by fun_prop)]
        simp
  refine ⟨_, _, _, rfl, rfl, rfl, fun i => ?_⟩
  have hv := (hval i).2
  have h0 : 0 ≤ Var[fun x => x i; dirichletLaw alpha] := variance_nonneg _ _
  refine ⟨(hval i).1.symm, Real.sqrt_nonneg _, ?_, hv.symm⟩
  simp only
  rw [← hv, Real.sq_sqrt h0]

/-- Parameters that are not all positive are refused, and without parameters nothing is reported. -/
theorem dirichlet_refused {n : ℕ} (alpha : Fin n → ℝ) (i : Fin n) (h : alpha i ≤ 0) (moves : List (Fin n → ℝ)) :
    dirLive (some alpha) = .error .valueError ∧
    ∃ o, dirLive (n := n) none = .ok o ∧ dirSummary o = .error .valueError ∧ dirMean o = .error .attributeError ∧
      dirVar o = .error .attributeError ∧ dirSession o moves = .error .attributeError := by
  refine ⟨?_, ⟨none, none⟩, rfl, rfl, rfl, rfl, rfl⟩
  have : ¬ ∀ i, 0 < alpha i := fun hp => absurd (hp i) (not_lt.2 h)
  simp only [dirLive]
  rw [if_neg this]

/-- After any movements of the sliders a Dirichlet is the one built from the last positions. -/
theorem dirichlet_session {n : ℕ} (alpha last : Fin n → ℝ) (h : ∀ i, 0 < alpha i) (moves : List (Fin n → ℝ))
    (hm : ∀ a ∈ moves ++ [last], ∀ i, 0 < a i) :
    (dirLive (some alpha) >>= fun o => dirSession o (moves ++ [last])) = dirLive (some last) := by
  rw [dir_ok h]
  simp only [Except.ok_bind', dirSession, dir_ok h]
  exact foldlM_last (fun m => dirLive (some m)) _ moves last (fun x hx => ⟨_, dir_ok (hm x hx)⟩)

/-- three coordinates -/
example : ∀ i, 0 < (![0.5, 1, 3] : Fin 3 → ℝ) i := by
  intro i
  fin_cases i <;> norm_num

/-! ## Grids -/

/-- The grid between two finite ends: 1000 increasing values from one end to the other, with constant steps. -/
theorem multivariate_grid (lo hi : EReal) (a b : ℝ) (hab : a < b) :
    ∃ l, mvXvals lo hi (.pair a b) = .ok l ∧ mvXvals a b .full = .ok l ∧ l.length = 1000 ∧ l[0]? = some a ∧
      l[999]? = some b ∧ l.Pairwise (· < ·) ∧ (∀ x ∈ l, a ≤ x ∧ x ≤ b) ∧
      ∃ d, ∀ i x y, l[i]? = some x → l[i + 1]? = some y → y - x = d := by
  have hd : 0 < (b - a) / 999 := by
    apply div_pos <;> linarith
  have e : Roulette.linspace a b 1000 = (List.range 1000).map fun (i : ℕ) => a + i * ((b - a) / 999) := by
    unfold Roulette.linspace
    norm_num
  refine ⟨Roulette.linspace a b 1000, by simp [mvXvals, mvEndpoints], by simp [mvXvals, mvEndpoints], ?_⟩
  rw [e]
  refine ⟨by simp, by simp, ?_, ?_, ?_, (b - a) / 999, ?_⟩
  · rw [List.getElem?_map, List.getElem?_range (by norm_num)]
    simp only [Option.map_some, Option.some.injEq]
    push_cast
    field_simp
    ring
  · rw [List.pairwise_map]
    refine List.Pairwise.imp (fun {i j} hij => ?_) (List.pairwise_lt_range (n := 1000))
    have : (i : ℝ) < j := by exact_mod_cast hij
    nlinarith
  · intro x hx
    obtain ⟨i, hi, rfl⟩ := List.mem_map.1 hx
    have hi' : (i : ℝ) ≤ 999 := by
      have := List.mem_range.1 hi
      exact_mod_cast (by omega : i ≤ 999)
    have h0 : (0 : ℝ) ≤ i := Nat.cast_nonneg i
    refine ⟨by nlinarith, ?_⟩
    have h2 : (i : ℝ) * ((b - a) / 999) ≤ 999 * ((b - a) / 999) := mul_le_mul_of_nonneg_right hi' hd.le
    have h3 : 999 * ((b - a) / 999) = b - a := by ring
    linarith
  · intro i x y hx hy
    have hg : ∀ (i : ℕ) (x : ℝ), ((List.range 1000).map fun (i : ℕ) => a + i * ((b - a) / 999))[i]? = some x →
        x = a + i * ((b - a) / 999) := by
      intro i x hx
      rw [List.getElem?_map, Option.map_eq_some_iff] at hx
      obtain ⟨j, hj, rfl⟩ := hx
      rw [List.getElem?_eq_some_iff] at hj
      obtain ⟨hlt, hj⟩ := hj
      rw [List.getElem_range] at hj
      rw [hj]
    rw [hg _ _ hx, hg _ _ hy]
    push_cast
    ring

/-- `xvals("full")` of a Dirichlet is such a grid, and all its values are strictly between 0 and 1. -/
theorem dirichlet_xvals : ∃ l, mvXvals dirSupport.1 dirSupport.2 .full = .ok l ∧ l.length = 1000 ∧
    l[0]? = some eps ∧ l[999]? = some (1 - eps) ∧ l.Pairwise (· < ·) ∧ ∀ x ∈ l, 0 < x ∧ x < 1 := by
  have he : (0 : ℝ) < eps := by unfold eps; positivity
  have he2 : (eps : ℝ) < 1 / 2 := by unfold eps; norm_num
  obtain ⟨l, -, h1, h2, h3, h4, h5, h6, -⟩ := multivariate_grid 0 1 eps (1 - eps) (by linarith)
  exact ⟨l, h1, h2, h3, h4, h5, fun x hx => ⟨by linarith [(h6 x hx).1], by linarith [(h6 x hx).2]⟩⟩

/-- the support of an MvNormal is the whole line and that of a Dirichlet the unit interval without `eps` at its ends: the
coordinates of every vector, and of every vector of positive numbers with sum one that are not that small, lie in it -/
theorem multivariate_support (x : ℝ) :
    (mvSupport.1 < x ∧ (x : EReal) < mvSupport.2) ∧
    ((dirSupport.1 ≤ x ∧ (x : EReal) ≤ dirSupport.2) ↔ eps ≤ x ∧ x ≤ 1 - eps) := by
  simp only [mvSupport, dirSupport, EReal.bot_lt_coe, EReal.coe_lt_top, EReal.coe_le_coe_iff, and_self]

/-- negation: `xvals("restricted")` always fails, and so does `xvals("full")` of an MvNormal, because there is no `ppf` -/
theorem multivariate_xvals_raise (lo hi : EReal) :
    mvXvals lo hi .restricted = .error .attributeError ∧
    mvXvals mvSupport.1 mvSupport.2 .full = .error .attributeError := by
  simp [mvXvals, mvEndpoints, mvSupport]

end Verif.Props
