import Verif.Lemmas.PolyCheck

/-!
# Polynomials that are nonnegative on an interval

The substitution `x = (a + b t) / (d + d t)` carries `t ≥ 0` to the interval from `a/d` to `b/d`; the polynomial is nonnegative
there if, after the substitution, its coefficients are.
-/

namespace Verif.Poly

/-- the polynomial at `q / r`, without the denominator -/
def hom (q r : List ℤ) : List ℤ → List ℤ
  | [] => []
  | a :: p => add (smul a (pow r p.length)) (mul q (hom q r p))

theorem ev_hom (q r p : List ℤ) {x : ℝ} (hr : ev r x ≠ 0) :
    ev (hom q r p) x * ev r x = ev r x ^ p.length * ev p (ev q x / ev r x) := by
  induction p with
  | nil => simp [hom]
  | cons a p ih =>
    simp only [hom, ev_add, ev_smul, ev_mul, ev_pow, ev_cons, List.length_cons]
    have e : ev q x * ev (hom q r p) x * ev r x =
        ev r x ^ p.length * ev q x * ev p (ev q x / ev r x) := by
      rw [mul_assoc, ih]; ring
    rw [add_mul, e]
    field_simp
    ring

/-- the polynomial at `x + c` -/
def shc (c : ℤ) : List ℤ → List ℤ
  | [] => []
  | a :: p => add (a :: shc c p) (smul c (shc c p))

theorem ev_shc (c : ℤ) (p : List ℤ) (x : ℝ) : ev (shc c p) x = ev p (x + c) := by
  induction p with
  | nil => rfl
  | cons a p ih => simp only [shc, ev_add, ev_smul, ev_cons, ih]; ring

/-- the polynomial at `x + 1` -/
def sh1 : List ℤ → List ℤ
  | [] => []
  | a :: p => add (a :: sh1 p) (sh1 p)

theorem ev_sh1 (p : List ℤ) (x : ℝ) : ev (sh1 p) x = ev p (x + 1) := by
  induction p with
  | nil => rfl
  | cons a p ih => simp only [sh1, ev_add, ev_cons, ih]; ring

/-- the polynomial at `x / d`, without the denominator -/
def dil (d : ℤ) : List ℤ → List ℤ
  | [] => []
  | a :: p => (a * d ^ p.length) :: dil d p

theorem ev_dil (d : ℤ) (hd : d ≠ 0) (p : List ℤ) (x : ℝ) : ev (dil d p) x * d = d ^ p.length * ev p (x / d) := by
  have hd' : (d : ℝ) ≠ 0 := by exact_mod_cast hd
  induction p with
  | nil => simp [dil]
  | cons a p ih =>
    simp only [dil, ev_cons, List.length_cons]
    rw [add_mul, mul_assoc x, ih]
    push_cast
    field_simp
    ring

/-- the polynomial at `c x`, times `k` -/
def ext (c k : ℤ) : List ℤ → List ℤ
  | [] => []
  | a :: p => (a * k) :: ext c (k * c) p

theorem ev_ext (c k : ℤ) (p : List ℤ) (x : ℝ) : ev (ext c k p) x = k * ev p (c * x) := by
  induction p generalizing k with
  | nil => simp [ext]
  | cons a p ih => simp only [ext, ev_cons, ih]; push_cast; ring

theorem ev_append (p q : List ℤ) (x : ℝ) : ev (p ++ q) x = ev p x + x ^ p.length * ev q x := by
  induction p with
  | nil => simp
  | cons a p ih => simp only [List.cons_append, ev_cons, ih, List.length_cons]; ring

theorem ev_reverse (p : List ℤ) {x : ℝ} (hx : x ≠ 0) : x * ev p.reverse x = x ^ p.length * ev p (1 / x) := by
  induction p with
  | nil => simp
  | cons a p ih =>
    rw [List.reverse_cons, ev_append, mul_add, ih]
    simp only [ev_cons, ev_nil, List.length_cons, List.length_reverse]
    field_simp
    ring

/-- nonnegative on the interval -/
def on (a b d : ℤ) (p : List ℤ) : Bool := nonneg (sh1 (ext (b - a) 1 (shc a (dil d p))).reverse)

theorem ev_on {a b d : ℤ} {p : List ℤ} (hd : 0 < d) (h : on a b d p = true) {x : ℝ} (h0 : a < d * x)
    (h1 : d * x ≤ b) : 0 ≤ ev p x := by
  have hd' : (0 : ℝ) < d := by exact_mod_cast hd
  have hab : (0 : ℝ) < b - a := by linarith
  set s := (d * x - a) / (b - a) with hs
  have hs0 : 0 < s := div_pos (by linarith) hab
  have hs1 : s ≤ 1 := by rw [hs, div_le_one hab]; linarith
  have hy : 0 ≤ 1 / s - 1 := by rw [sub_nonneg, one_le_div hs0]; exact hs1
  have h2 := ev_nonneg h hy
  rw [ev_sh1, sub_add_cancel] at h2
  have h3 := ev_reverse (ext (b - a) 1 (shc a (dil d p))) (one_div_pos.2 hs0).ne'
  rw [one_div_one_div, ev_ext, ev_shc] at h3
  have e : ((b - a : ℤ) : ℝ) * s + a = d * x := by
    rw [hs]; push_cast; field_simp; ring
  rw [e] at h3
  have h4 := ev_dil d hd.ne' p (d * x)
  rw [mul_div_cancel_left₀ x hd'.ne'] at h4
  have h5 : 0 ≤ ((1 : ℤ) : ℝ) * ev (dil d p) (d * x) :=
    nonneg_of_mul_nonneg_right (h3 ▸ mul_nonneg (one_div_pos.2 hs0).le h2)
      (pow_pos (one_div_pos.2 hs0) _)
  rw [Int.cast_one, one_mul] at h5
  exact nonneg_of_mul_nonneg_right (h4 ▸ mul_nonneg h5 hd'.le) (pow_pos hd' _)

end Verif.Poly
