import Verif.Spec.Delegate
import Verif.Lemmas.Param2
import Mathlib.Tactic

/-!
# C92: the methods of the univariate families hand the right numbers to the numerical library
-/

namespace Verif.Props
open Verif Verif.Delegate Verif.Param Verif.Spec

/-- the resolved call of a row is the one the specification asks for -/
def rowOk (w : Wiring) (r : Row) : Bool :=
  match r.resolve with
  | .ok (args, kws) =>
    r.ext = r.meth && args = (leading r.meth).map .own ++ (signature w.family).map .attr &&
      kws = (keywords r.meth).map fun i => (i, .own i)
  | .error _ => false

theorem wiring_table : ∀ w ∈ wirings, w.module = libModule w.family ∧
    ∀ r ∈ w.rows, rowOk w r = true := by
  decide +kernel

/-- **C92**: the methods every univariate family needs are all defined by its class. -/
theorem methods_defined : ∀ w ∈ wirings, ∀ m ∈ [Meth.pdf, .cdf, .ppf, .logpdf, .entropy, .mean,
    .median, .var, .std, .skewness, .kurtosis, .rvs], ∃ r ∈ w.rows, r.meth = m := by
  decide +kernel

/-- `mode` is missing (and searched for numerically) in four families, the L-moments in one; the
survival functions and logarithms are overridden in four. -/
theorem methods_missing : ∀ w ∈ wirings,
    ((¬ ∃ r ∈ w.rows, r.meth = .mode) ↔ w.family ∈ [.simple .exGaussian, .rice, .skewStudentT,
      .skewNormal]) ∧
    (∀ m ∈ [Meth.lmoment1, .lmoment2, .lmoment3, .lmoment4],
      (¬ ∃ r ∈ w.rows, r.meth = m) ↔ w.family = .simple .discreteWeibull) ∧
    (∀ m ∈ [Meth.sf, .isf, .logisf],
      (∃ r ∈ w.rows, r.meth = m) ↔ w.family ∈ [.beta, .betaScaled, .normal]) ∧
    (∀ m ∈ [Meth.logcdf, .logsf],
      (∃ r ∈ w.rows, r.meth = m) ↔ w.family ∈ [.beta, .betaScaled, .normal, .simple .cauchy]) := by
  decide +kernel

/-- **C92**: no class defines a method twice. -/
theorem methods_once : ∀ w ∈ wirings, (w.rows.map (·.meth)).Nodup := by
  decide +kernel

/-- **C92**: every family is in the table, once. -/
theorem families_once : (wirings.map (·.family)).Nodup ∧ ∀ f : Family, f ∈ wirings.map (·.family) := by
  refine ⟨by decide +kernel, fun f => ?_⟩
  rcases f with (_ | _ | _ | _ | _ | _ | _ | _ | _ | _ | _ | _ | _ | _ | _ | _ | _ | _ | _ | _ | _ |
    _ | _ | _ | _) | _ | _ | _ | _ | _ | _ | _ | _ | _ | _ | _ | _ | _ | _ | _ | _ | _ | _ | _ <;>
    decide +kernel

/-- **C92**: a method the class defines calls the function of the same name in the module of its
family, with the caller's point or level first and the attributes of the object in the library's
order; `rvs` also passes on `size` and the random state, by name. -/
theorem delegates {α : Type} {w : Wiring} (hw : w ∈ wirings) {m : Meth}
    (hm : ∃ r ∈ w.rows, r.meth = m) (user attr : Id → α) :
    w.call m user attr = .ok (theCall w.family m user ((signature w.family).map attr)) := by
  obtain ⟨hmod, hrows⟩ := wiring_table w hw
  unfold Wiring.call
  cases hf : w.rows.find? (·.meth = m) with
  | none =>
    obtain ⟨r, hr, rfl⟩ := hm
    have := List.find?_eq_none.mp hf r hr
    simp at this
  | some r =>
    have hr := List.mem_of_find?_eq_some hf
    have hrm : r.meth = m := by simpa using List.find?_some hf
    have := hrows r hr
    unfold rowOk at this
    revert this
    cases hres : r.resolve with
    | error e => simp
    | ok p =>
      obtain ⟨args, kws⟩ := p
      intro h
      simp only [Bool.and_eq_true, decide_eq_true_eq] at h
      obtain ⟨⟨h1, h2⟩, h3⟩ := h
      subst h2 h3
      simp only [hres, Except.ok_bind', Except.pure_eq, theCall, h1, hrm, hmod, List.map_append,
        List.map_map]
      rfl

theorem wholePart_int64 (x : ℝ) : int64 x = wholePart x := by
  unfold int64 wholePart
  split_ifs
  · rfl
  · rw [Int.floor_neg]; push_cast; ring

theorem length_four {l : List ℝ} (h : l.length = 4) : ∃ a b c d, l = [a, b, c, d] := by
  match l, h with
  | [a, b, c, d], _ => exact ⟨a, b, c, d, rfl⟩

theorem simple_params {s : Simple} {vals : List ℝ} (o : Obj)
    (hl : vals.length = (simpleFam s).args.length) :
    (signature (.simple s)).map (fun i => (simpleUpdate (simpleFam s) vals o).attr i.name) =
      (passed (.simple s) vals).map some := by
  cases s <;> simp only [simpleFam, List.length_cons, List.length_nil] at hl <;>
    (first
      | (obtain ⟨a, rfl⟩ := List.length_eq_one_iff.mp hl)
      | (obtain ⟨a, b, rfl⟩ := List.length_eq_two.mp hl)
      | (obtain ⟨a, b, c, rfl⟩ := List.length_eq_three.mp hl)
      | (obtain ⟨a, b, c, d, rfl⟩ := length_four hl)) <;>
    simp [signature, passed, simpleUpdate, simpleFam, Obj.setAll, Obj.set, Id.name,
      Function.update, wholePart_int64]

/-- **C92**: after `_update` with the canonical values `vals`, whatever the object was before, the
attributes handed to the library are those values, in the library's order. -/
theorem updated_params {f : Family} {vals : List ℝ} {o o' : Obj} (h : update f vals o = .ok o') :
    (signature f).map (fun i => o'.attr i.name) = (passed f vals).map some := by
  unfold update at h
  split at h
  · split_ifs at h with hl
    cases h
    exact simple_params _ hl
  all_goals cases h
  all_goals
    simp [signature, passed, Obj.setAll, Obj.set, Id.name,
      asymLaplaceUpdate, bernoulliUpdate, betaUpdate, betaScaledUpdate, exponentialUpdate,
      gammaUpdate, halfNormalUpdate, halfStudentTUpdate, invGammaUpdate, kumaraswamyUpdate,
      normalUpdate, nbUpdate, nbToNP, riceUpdate, skewNormalUpdate, skewStudentTUpdate,
      studentTUpdate, waldUpdate, zinbUpdate]
  all_goals repeat (split_ifs <;> simp [*])

/-- **C92**: any method of an object updated with the canonical values `vals` makes the call to the
library that the family, the method and the values determine. -/
theorem method_call {α : Type} (num : Option ℝ → α) {w : Wiring} (hw : w ∈ wirings) {m : Meth}
    (hm : ∃ r ∈ w.rows, r.meth = m) {vals : List ℝ} {o o' : Obj}
    (h : update w.family vals o = .ok o') (user : Id → α) :
    w.call m user (fun i => num (o'.attr i.name)) =
      .ok (theCall w.family m user ((passed w.family vals).map fun v => num (some v))) := by
  rw [delegates hw hm]
  have := congrArg (List.map num) (updated_params h)
  rw [List.map_map, List.map_map] at this
  exact congrArg (fun l => Except.ok (theCall w.family m user l)) this

/-- **C92**: two objects of one family updated with the same values make the same calls, whatever
their parametrisations and histories. -/
theorem method_history {α : Type} (num : Option ℝ → α) {w : Wiring} (hw : w ∈ wirings) {m : Meth}
    (hm : ∃ r ∈ w.rows, r.meth = m) {vals : List ℝ} {o₁ o₂ o₁' o₂' : Obj}
    (h₁ : update w.family vals o₁ = .ok o₁') (h₂ : update w.family vals o₂ = .ok o₂')
    (user : Id → α) :
    w.call m user (fun i => num (o₁'.attr i.name)) =
      w.call m user (fun i => num (o₂'.attr i.name)) := by
  rw [method_call num hw hm h₁, method_call num hw hm h₂]

/-- the counts of the family are whole numbers, the shapes of the negative binomials positive and
their means not negative -/
def WholeCounts : Family → List ℝ → Prop
  | .negativeBinomial, [m, a] => 0 ≤ m ∧ 0 < a
  | .ziNegativeBinomial, [_, m, a] => 0 ≤ m ∧ 0 < a
  | .simple .betaBinomial, [_, _, n] => ∃ k : ℤ, n = k
  | .simple .binomial, [n, _] => ∃ k : ℤ, n = k
  | .simple .ziBinomial, [_, n, _] => ∃ k : ℤ, n = k
  | .simple .hyperGeometric, [N, k, n] => (∃ i : ℤ, N = i) ∧ (∃ i : ℤ, k = i) ∧ ∃ i : ℤ, n = i
  | .simple .discreteUniform, [l, u] => (∃ i : ℤ, l = i) ∧ ∃ i : ℤ, u = i
  | _, _ => True

theorem wholePart_int (k : ℤ) : wholePart k = k := by
  unfold wholePart
  split_ifs
  · simp
  · rw [Int.floor_neg, Int.ceil_intCast]; simp

theorem nb_p_injective {m m' a : ℝ} (ha : 0 < a) (hm : 0 ≤ m) (hm' : 0 ≤ m')
    (h : a / (m + a) = a / (m' + a)) : m = m' := by
  rw [div_eq_div_iff (by positivity) (by positivity)] at h
  nlinarith

theorem simple_length (s : Simple) :
    (simpleFam s).args.length = (signature (.simple s)).length := by
  cases s <;> rfl

theorem update_length {f : Family} {v : List ℝ} {o o' : Obj} (h : update f v o = .ok o') :
    v.length = (signature f).length := by
  unfold update at h
  split at h
  · split_ifs at h with hl
    rw [hl]
    exact simple_length _
  all_goals cases h
  all_goals rfl

/-- **C92**: no parameter is ignored: different canonical values reach the library as different
numbers (counts being whole numbers). -/
theorem passed_injective {f : Family} {v₁ v₂ : List ℝ} {o₁ o₂ o₁' o₂' : Obj}
    (h₁ : update f v₁ o₁ = .ok o₁') (h₂ : update f v₂ o₂ = .ok o₂') (e₁ : WholeCounts f v₁)
    (e₂ : WholeCounts f v₂) (h : passed f v₁ = passed f v₂) : v₁ = v₂ := by
  have l₁ := update_length h₁
  have l₂ := update_length h₂
  clear h₁ h₂
  rcases f with (_ | _ | _ | _ | _ | _ | _ | _ | _ | _ | _ | _ | _ | _ | _ | _ | _ | _ | _ | _ | _ |
    _ | _ | _ | _) | _ | _ | _ | _ | _ | _ | _ | _ | _ | _ | _ | _ | _ | _ | _ | _ | _ | _ | _ <;>
    simp only [signature, List.length_cons, List.length_nil] at l₁ l₂ <;>
    (first
      | (obtain ⟨a, rfl⟩ := List.length_eq_one_iff.mp l₁
         obtain ⟨a', rfl⟩ := List.length_eq_one_iff.mp l₂)
      | (obtain ⟨a, b, rfl⟩ := List.length_eq_two.mp l₁
         obtain ⟨a', b', rfl⟩ := List.length_eq_two.mp l₂)
      | (obtain ⟨a, b, c, rfl⟩ := List.length_eq_three.mp l₁
         obtain ⟨a', b', c', rfl⟩ := List.length_eq_three.mp l₂)
      | (obtain ⟨a, b, c, d, rfl⟩ := length_four l₁
         obtain ⟨a', b', c', d', rfl⟩ := length_four l₂)) <;>
    simp only [passed, WholeCounts] at h e₁ e₂ <;>
    (first
      | exact h
      | (obtain ⟨i, rfl⟩ := e₁
         obtain ⟨i', rfl⟩ := e₂
         simp only [wholePart_int, List.cons.injEq, and_true] at h ⊢
         tauto)
      | (obtain ⟨⟨i, rfl⟩, j, rfl⟩ := e₁
         obtain ⟨⟨i', rfl⟩, j', rfl⟩ := e₂
         simpa using h)
      | (obtain ⟨⟨i, rfl⟩, ⟨j, rfl⟩, k, rfl⟩ := e₁
         obtain ⟨⟨i', rfl⟩, ⟨j', rfl⟩, k', rfl⟩ := e₂
         simpa [wholePart_int] using h)
      | (simp only [List.cons.injEq, and_true] at h ⊢
         obtain ⟨rfl, h⟩ := h
         exact ⟨nb_p_injective e₁.2 e₁.1 e₂.1 h, rfl⟩)
      | (simp only [List.cons.injEq, and_true] at h ⊢
         obtain ⟨rfl, rfl, h⟩ := h
         exact ⟨rfl, nb_p_injective e₁.2 e₁.1 e₂.1 h, rfl⟩)
      | (simp only [List.cons.injEq, and_true] at h ⊢
         tauto))

/-- **C92**: the zero-inflated Poisson and negative binomial: zero for negative numbers, the
library's value for the others, `nan` for `nan` and both infinities. -/
theorem zi_pdf (r : Option ℝ) :
    (∀ x : ℝ, x < 0 → ziPdf (some (x : EReal)) r = some 0) ∧
    (∀ x : ℝ, 0 ≤ x → ziPdf (some (x : EReal)) r = r) ∧
    ziPdf none r = none ∧ ziPdf (some ⊤) r = none ∧ ziPdf (some ⊥) r = none := by
  refine ⟨fun x hx => ?_, fun x hx => ?_, rfl, by simp [ziPdf], by simp [ziPdf]⟩
  · have : (x : EReal) < 0 := by exact_mod_cast hx
    simp [ziPdf, this]
  · have : ¬ (x : EReal) < 0 := by exact_mod_cast not_lt.mpr hx
    simp [ziPdf, this]

/-- **C92**: the zero-inflated binomial: zero outside `[0, n]`, the library's value inside, zero
for both infinities. -/
theorem zi_binomial_pdf (n : ℝ) (r : Option ℝ) :
    (∀ x : ℝ, x < 0 ∨ n < x → ziBinomialPdf n (some (x : EReal)) r = some 0) ∧
    (∀ x : ℝ, 0 ≤ x → x ≤ n → ziBinomialPdf n (some (x : EReal)) r = r) ∧
    ziBinomialPdf n (some ⊤) r = some 0 ∧ ziBinomialPdf n (some ⊥) r = some 0 := by
  refine ⟨fun x hx => ?_, fun x h0 hn => ?_, by simp [ziBinomialPdf], by simp [ziBinomialPdf]⟩
  · have : (x : EReal) < 0 ∨ (n : EReal) < x := by
      rcases hx with h | h
      · left; exact_mod_cast h
      · right; exact_mod_cast h
    exact if_pos (by tauto)
  · have h1 : ¬ (x : EReal) < 0 := by exact_mod_cast not_lt.mpr h0
    have h2 : ¬ (n : EReal) < x := by exact_mod_cast not_lt.mpr hn
    simp [ziBinomialPdf, h1, h2]

/-- **C92**, negative: the zero-inflated binomial alone answers `0` to `nan`, losing it. -/
theorem zi_binomial_nan (n : ℝ) (r : Option ℝ) :
    ziBinomialPdf n none r = some 0 ∧ ziPdf none r = none := ⟨rfl, rfl⟩

/-! ### Examples -/

/-- `SkewStudentT(mu=1, sigma=2, a=3, b=4).pdf(5)` calls `skew_studentt.pdf(5, 3, 4, 1, 2)`: the
library wants the shapes first. -/
example (o : Obj) : wSkewStudentT.call .pdf (fun _ => some (5 : ℝ))
    (fun i => (skewStudentTUpdate 1 2 3 4 o).attr i.name) =
      .ok ⟨"skew_studentt", .pdf, [some 5, some 3, some 4, some 1, some 2], []⟩ :=
  method_call (w := wSkewStudentT) id (by simp [wirings]) (by decide +kernel)
    (vals := [1, 2, 3, 4]) (o := o) rfl _

/-- a negative binomial with mean 6 and shape 2 is handed over as `n = 2`, `p = 1/4`, and `rvs`
passes the size and the generator by name -/
example (o : Obj) : wNegativeBinomial.call .rvs
    (fun i => if i = .size then some (10 : ℝ) else some 77)
    (fun i => (nbUpdate 6 2 o).attr i.name) =
      .ok ⟨"negativebinomial", .rvs, [some 2, some (1 / 4)],
        [(.size, some 10), (.random_state, some 77)]⟩ := by
  have := method_call (w := wNegativeBinomial) (m := .rvs) id (by simp [wirings])
    (by decide +kernel) (vals := [6, 2]) (o := o) rfl
    (fun i => if i = .size then some (10 : ℝ) else some 77)
  refine this.trans ?_
  have e : (2 : ℝ) / (6 + 2) = 1 / 4 := by norm_num
  show Except.ok (_ : Call (Option ℝ)) = _
  simp [theCall, wNegativeBinomial, passed, libModule, leading, keywords, e]

/-- `Binomial(n=5.9, p=0.5)`: the library gets 5 -/
example : passed (.simple .binomial) [5.9, 0.5] = [5, 0.5] := by
  have : ⌊(5.9 : ℝ)⌋ = 5 := by rw [Int.floor_eq_iff]; norm_num
  simp [passed, wholePart, this]
  norm_num

/-- the hypotheses of `passed_injective` are met -/
example : WholeCounts (.simple .hyperGeometric) [50, 10, 20] ∧ WholeCounts .negativeBinomial [0, 1 / 2] :=
  ⟨⟨⟨50, by norm_num⟩, ⟨10, by norm_num⟩, 20, by norm_num⟩, le_refl _, by norm_num⟩

/-- two parametrisations of Normal, one updated later: same calls -/
example (m : Meth) (hm : ∃ r ∈ wNormal.rows, r.meth = m) (user : Id → Option ℝ) :
    wNormal.call m user (fun i => (normalUpdate 1 2 { blank with names := ["mu", "tau"] }).attr
      i.name) =
    wNormal.call m user (fun i => (normalUpdate 1 2 (normalUpdate 7 8 { blank with
      names := ["mu", "sigma"] })).attr i.name) :=
  method_history (w := wNormal) id (by simp [wirings]) hm (vals := [1, 2]) rfl rfl user

example : ziPdf (some ((-1 : ℝ) : EReal)) (some 0.3) = some 0 ∧
    ziPdf (some ((2 : ℝ) : EReal)) (some 0.3) = some 0.3 ∧
    ziBinomialPdf 4 (some ((5 : ℝ) : EReal)) none = some 0 :=
  ⟨(zi_pdf _).1 _ (by norm_num), (zi_pdf _).2.1 _ (by norm_num),
    (zi_binomial_pdf _ _).1 _ (by norm_num)⟩

end Verif.Props
