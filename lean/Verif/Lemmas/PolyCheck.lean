import Mathlib.Data.Real.Basic
import Mathlib.Analysis.Calculus.Deriv.Pow
import Mathlib.Analysis.Calculus.Deriv.Mul
import Mathlib.Analysis.Calculus.Deriv.Add
import Mathlib.Tactic

/-!
# Polynomials and rational functions with integer coefficients that can be computed with

A polynomial is the list of its coefficients, the constant one first.  Nonnegative coefficients give a nonnegative value at
every nonnegative point, which reduces an inequality between rational functions to a finite computation.
-/

namespace Verif.Poly

/-- the value at `x` -/
noncomputable def ev : List ℤ → ℝ → ℝ
  | [], _ => 0
  | a :: p, x => a + x * ev p x

def add : List ℤ → List ℤ → List ℤ
  | [], q => q
  | p, [] => p
  | a :: p, b :: q => (a + b) :: add p q

def smul (c : ℤ) : List ℤ → List ℤ
  | [] => []
  | a :: p => (c * a) :: smul c p

def mul : List ℤ → List ℤ → List ℤ
  | [], _ => []
  | a :: p, q => add (smul a q) (0 :: mul p q)

def pow (p : List ℤ) : ℕ → List ℤ
  | 0 => [1]
  | n + 1 => mul p (pow p n)

/-- derivative: `(a + x p)' = p + x p'` -/
def der : List ℤ → List ℤ
  | [] => []
  | _ :: p => add p (0 :: der p)

/-- the polynomial at `x + 1` -/
def sh : List ℤ → List ℤ
  | [] => []
  | a :: p => add [a] (mul [1, 1] (sh p))

def nonneg (p : List ℤ) : Bool := p.all fun a => decide (0 ≤ a)

/-- nonnegative coefficients and a positive constant -/
def posit : List ℤ → Bool
  | [] => false
  | a :: p => decide (0 < a) && nonneg p

@[simp] theorem ev_nil (x : ℝ) : ev [] x = 0 := rfl

theorem ev_cons (a : ℤ) (p : List ℤ) (x : ℝ) : ev (a :: p) x = a + x * ev p x := rfl

theorem ev_add (p q : List ℤ) (x : ℝ) : ev (add p q) x = ev p x + ev q x := by
  induction p generalizing q with
  | nil => simp [add]
  | cons a p ih =>
    cases q with
    | nil => simp [add]
    | cons b q => simp only [add, ev_cons, ih]; push_cast; ring

theorem ev_smul (c : ℤ) (p : List ℤ) (x : ℝ) : ev (smul c p) x = c * ev p x := by
  induction p with
  | nil => simp [smul]
  | cons a p ih => simp only [smul, ev_cons, ih]; push_cast; ring

theorem ev_mul (p q : List ℤ) (x : ℝ) : ev (mul p q) x = ev p x * ev q x := by
  induction p with
  | nil => simp [mul]
  | cons a p ih => simp only [mul, ev_add, ev_smul, ev_cons, ih]; push_cast; ring

theorem ev_pow (p : List ℤ) (n : ℕ) (x : ℝ) : ev (pow p n) x = ev p x ^ n := by
  induction n with
  | zero => simp [pow, ev_cons]
  | succ n ih => rw [pow, ev_mul, ih, pow_succ']

theorem ev_sh (p : List ℤ) (x : ℝ) : ev (sh p) x = ev p (x + 1) := by
  induction p with
  | nil => rfl
  | cons a p ih => simp only [sh, ev_add, ev_mul, ev_cons, ih, ev_nil]; push_cast; ring

theorem hasDerivAt_ev (p : List ℤ) (x : ℝ) : HasDerivAt (ev p) (ev (der p) x) x := by
  induction p with
  | nil => exact hasDerivAt_const x (0 : ℝ)
  | cons a p ih =>
    have h := ((hasDerivAt_id x).mul ih).const_add (a : ℝ)
    refine (h.congr_deriv ?_)
    simp only [der, ev_add, ev_cons, id_eq]
    push_cast
    ring

theorem ev_nonneg {p : List ℤ} (h : nonneg p = true) {x : ℝ} (hx : 0 ≤ x) : 0 ≤ ev p x := by
  induction p with
  | nil => simp
  | cons a p ih =>
    simp only [nonneg, List.all_cons, Bool.and_eq_true, decide_eq_true_eq] at h
    have ha : (0 : ℝ) ≤ a := by exact_mod_cast h.1
    have := ih h.2
    rw [ev_cons]
    positivity

theorem ev_pos {p : List ℤ} (h : posit p = true) {x : ℝ} (hx : 0 ≤ x) : 0 < ev p x := by
  cases p with
  | nil => simp [posit] at h
  | cons a p =>
    simp only [posit, Bool.and_eq_true, decide_eq_true_eq] at h
    have ha : (0 : ℝ) < a := by exact_mod_cast h.1
    have := ev_nonneg h.2 hx
    rw [ev_cons]
    positivity

/-! ## rational functions -/

/-- numerator and denominator -/
structure Rat' where
  num : List ℤ
  den : List ℤ

noncomputable def Rat'.val (r : Rat') (x : ℝ) : ℝ := ev r.num x / ev r.den x

def Rat'.plus (r s : Rat') : Rat' := ⟨add (mul r.num s.den) (mul s.num r.den), mul r.den s.den⟩

def Rat'.total : List Rat' → Rat'
  | [] => ⟨[], [1]⟩
  | r :: rs => r.plus (Rat'.total rs)

theorem Rat'.val_plus {r s : Rat'} {x : ℝ} (hr : ev r.den x ≠ 0) (hs : ev s.den x ≠ 0) :
    (r.plus s).val x = r.val x + s.val x := by
  simp only [Rat'.val, Rat'.plus, ev_add, ev_mul]
  field_simp

theorem Rat'.total_spec (l : List Rat') {x : ℝ} (h : ∀ r ∈ l, 0 < ev r.den x) :
    0 < ev (Rat'.total l).den x ∧ (Rat'.total l).val x = (l.map fun r => r.val x).sum := by
  induction l with
  | nil => simp [Rat'.total, ev_cons, Rat'.val]
  | cons r rs ih =>
    have h1 := h r (by simp)
    obtain ⟨h2, h3⟩ := ih fun s hs => h s (by simp [hs])
    refine ⟨?_, ?_⟩
    · simp only [Rat'.total, Rat'.plus, ev_mul]; positivity
    · rw [Rat'.total, Rat'.val_plus h1.ne' h2.ne', h3]; simp

/-- a sum of fractions with positive denominators is nonnegative if the coefficients of its numerator are -/
theorem Rat'.sum_nonneg (l : List Rat') {x : ℝ} (hx : 0 ≤ x) (hd : ∀ r ∈ l, posit r.den = true)
    (hn : nonneg (Rat'.total l).num = true) : 0 ≤ (l.map fun r => r.val x).sum := by
  obtain ⟨h1, h2⟩ := Rat'.total_spec l (x := x) fun r hr => ev_pos (hd r hr) hx
  rw [← h2, Rat'.val]
  have := ev_nonneg hn hx
  positivity

end Verif.Poly
