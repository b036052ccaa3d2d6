import Verif.Lemmas.PrintedText
import Verif.Lemmas.Param4

/-!
# C110: the printed form of a distribution
-/

namespace Verif.Props
open Verif Verif.Printed Verif.Spec

/-- numbers are printed as decimal numbers at most half a percent away -/
theorem printed_number (x : ℝ) : ∃ y, readNumber (g3 x) = some y ∧ |y - x| ≤ |x| / 200 := g3_read x

private theorem roundEven_nat (n : ℕ) : roundEven (n : ℝ) = n := by
  simp [roundEven]

private theorem sig3_exact {m : ℕ} (h0 : 0 < m) (h1 : m < 1000) (k : ℤ) :
    (((sig3 (m * 10 ^ k)).1 : ℝ) * 10 ^ ((sig3 (m * 10 ^ k)).2 - 2)) = (m : ℝ) * 10 ^ k := by
  have hx : (0 : ℝ) < m * 10 ^ k := by positivity
  set x : ℝ := m * 10 ^ k with hxd
  set e := Int.log 10 x with he
  have l1 : (10 : ℝ) ^ e ≤ x := by exact_mod_cast Int.zpow_log_le_self (b := 10) (by norm_num) hx
  have hlt : x < (10 : ℝ) ^ (k + 3) := by
    rw [hxd, zpow_add₀ (by norm_num)]
    have : (m : ℝ) < 1000 := by exact_mod_cast h1
    have p : (0 : ℝ) < 10 ^ k := by positivity
    have : (10 : ℝ) ^ (3 : ℤ) = 1000 := by norm_num
    rw [this]; nlinarith
  have hek : e < k + 3 := (zpow_lt_zpow_iff_right₀ (by norm_num : (1 : ℝ) < 10)).mp (lt_of_le_of_lt l1 hlt)
  obtain ⟨j, hj⟩ : ∃ j : ℕ, (j : ℤ) = k - (e - 2) := ⟨(k - (e - 2)).toNat, by omega⟩
  have hy : x / 10 ^ (e - 2) = ((m * 10 ^ j : ℕ) : ℝ) := by
    push_cast
    rw [hxd, mul_div_assoc, ← zpow_sub₀ (by norm_num), ← hj, zpow_natCast]
  have back : ((m * 10 ^ j : ℕ) : ℝ) * 10 ^ (e - 2) = x := by
    rw [← hy]; field_simp
  unfold sig3
  simp only [← he, hy, roundEven_nat]
  split_ifs with h
  · rw [← back, h, show e + 1 - 2 = (e - 2) + 1 by ring, zpow_add₀ (by norm_num)]; norm_num; ring
  · exact back

/-- numbers with up to three significant digits are printed exactly -/
theorem printed_exact (m : ℤ) (hm : |m| < 1000) (k : ℤ) : readNumber (g3 (m * 10 ^ k)) = some ((m : ℝ) * 10 ^ k) := by
  have p : (0 : ℝ) < 10 ^ k := by positivity
  rcases lt_trichotomy m 0 with h | rfl | h
  · obtain ⟨n, hn⟩ : ∃ n : ℕ, (n : ℤ) = -m := ⟨(-m).toNat, by omega⟩
    have hnr : (m : ℝ) = -(n : ℝ) := by
      have : (m : ℤ) = -(n : ℤ) := by omega
      rw [this]; push_cast; ring
    have hn1 : n < 1000 := by rw [abs_of_neg h] at hm; omega
    have hn0 : 0 < n := by omega
    have hneg : (m : ℝ) * 10 ^ k < 0 := by
      have : (m : ℝ) < 0 := by exact_mod_cast h
      nlinarith
    have e : -((m : ℝ) * 10 ^ k) = n * 10 ^ k := by rw [hnr]; ring
    have hx : (0 : ℝ) < n * 10 ^ k := by positivity
    unfold g3
    rw [if_neg hneg.ne, if_pos hneg, e]
    simp only [readNumber]
    rw [g3Pos_read (sig3_spec hx).2.1, sig3_exact hn0 hn1]
    simp only [Option.map_some, Option.some.injEq]
    rw [← e]; ring
  · simp [g3, readNumber, readUnsigned, readMantissa, readNat, digitOf]
  · obtain ⟨n, rfl⟩ : ∃ n : ℕ, m = (n : ℤ) := ⟨m.toNat, by omega⟩
    have hn0 : 0 < n := by omega
    have hn1 : n < 1000 := by rw [abs_of_pos h] at hm; omega
    have hx : (0 : ℝ) < (n : ℝ) * 10 ^ k := by positivity
    obtain ⟨d, t, hd, e⟩ := g3Pos_head (sig3_spec hx).2.1 (sig3 ((n : ℝ) * 10 ^ k)).2
    have ec : ((n : ℤ) : ℝ) = n := by simp
    unfold g3
    rw [ec, if_neg hx.ne', if_neg (not_lt.mpr hx.le), e, readNumber_digit hd, ← e, g3Pos_read (sig3_spec hx).2.1,
      sig3_exact hn0 hn1]

/-- the conditions on names under which the text can be taken apart -/
def CleanNames (o : Obj) : Prop := '(' ∉ o.name ∧ ∀ n ∈ o.names, n ≠ [] ∧ ∀ c ∈ n, c ∉ [',', ' ', '[', ']', '=', '(', ')']

/-- the printed form of a complete distribution is read back as its name and its parameters in order, each with its name and
a value at most half a percent away (infinities as such, arrays entry by entry) -/
theorem printed_reads (o : Obj) (hf : o.frozen = true) (hc : CleanNames o) (hm : ∀ v ∈ o.params, v ≠ .missing) :
    ∃ t r, Printed.repr o = .ok t ∧ readPrinted t = some (o.name, r) ∧
      List.Forall₂ (fun p q => p.1 = q.1 ∧ p.2.Reads q.2) (o.names.zip o.params) r := repr_read o hf hc.1 hm hc.2

/-- an incomplete distribution is printed as its name -/
theorem printed_incomplete (o : Obj) (hf : o.frozen = false) : Printed.repr o = .ok o.name := by simp [Printed.repr, hf]

/-- the names of the parameters of every family are clean -/
theorem exactNames_clean (f : Param.Family) (names : List String) (h : names ∈ exactNames f) :
    ∀ n ∈ names.map String.toList, n ≠ [] ∧ ∀ c ∈ n, c ∉ [',', ' ', '[', ']', '=', '(', ')'] := by
  have key : ∀ l : List (List String), (∀ names ∈ l, ∀ n ∈ names.map String.toList,
      n ≠ [] ∧ ∀ c ∈ n, c ∉ [',', ' ', '[', ']', '=', '(', ')']) ↔
      l.all (fun names => names.all fun n => decide (n.toList ≠ []) &&
        n.toList.all fun c => !([',', ' ', '[', ']', '=', '(', ')'] : List Char).contains c) = true := by
    intro l; simp
  have all : ∀ names ∈ exactNames f, ∀ n ∈ names.map String.toList,
      n ≠ [] ∧ ∀ c ∈ n, c ∉ [',', ' ', '[', ']', '=', '(', ')'] := by
    cases f with
    | simple s => rw [key]; cases s <;> simp only [exactNames, Param.simpleFam] <;> decide +kernel
    | _ => rw [key]; simp only [exactNames]; decide +kernel
  exact all names h

private theorem report_some (f : Param.Family) (names : List String) (vals : List ℝ) (hn : names ∈ exactNames f)
    (hd : canonDom f names vals) : ∃ xs : List ℝ, xs.length = names.length ∧ Param.report f names vals = xs.map some := by
  cases f with
  | simple s =>
    simp only [exactNames, List.mem_singleton] at hn
    subst hn
    simp only [canonDom] at hd
    refine ⟨List.zipWith (fun k v => (Param.simpleFam s).conv k v) (Param.simpleFam s).args vals, by simp [hd], ?_⟩
    simp [Param.report, List.map_zipWith]
  | inverseGamma =>
    match vals, hd with
    | [a, b], hd =>
      simp only [exactNames, List.mem_cons, List.not_mem_nil, or_false] at hn
      rcases hn with rfl | rfl
      · exact ⟨[a, b], by simp, by simp [Param.report]⟩
      · obtain ⟨-, -, h⟩ := hd
        have h2 := h rfl
        have h1 : 1 < a := by linarith
        refine ⟨[(Param.invGammaToMu a b).getD 0, (Param.invGammaToSigma a b).getD 0], by simp, ?_⟩
        simp [Param.report, Param.invGammaToMu, Param.invGammaToSigma, h1, h2]
  | bernoulli =>
    match vals, hd with
    | [p], hd =>
      simp only [exactNames, List.mem_cons, List.not_mem_nil, or_false] at hn
      rcases hn with rfl | rfl
      · exact ⟨[p], by simp, by simp [Param.report]⟩
      · obtain ⟨h0, h1⟩ := hd rfl
        refine ⟨[(Param.logit p).getD 0], by simp, ?_⟩
        simp [Param.report, Param.logit, h0.ne', h1.ne, not_or.mpr ⟨not_lt.mpr h0.le, not_lt.mpr h1.le⟩]
  | _ =>
    simp only [exactNames, List.mem_cons, List.not_mem_nil, or_false] at hn
    revert hd
    unfold canonDom
    split <;> simp_all only [false_implies, reduceCtorEq, implies_true]
    all_goals
      intro _
      (try casesm* _ ∨ _) <;> subst_vars <;> simp only [Param.report] <;> (try simp only [reduceIte, List.cons.injEq,
        String.reduceEq, false_and, and_false, if_false]) <;>
      first
      | exact ⟨[_], by simp, rfl⟩
      | exact ⟨[_, _], by simp, rfl⟩
      | exact ⟨[_, _, _], by simp, rfl⟩
      | exact ⟨[_, _, _, _], by simp, rfl⟩

/-- every complete object of a family that is not given by a precision, whatever its history, is printed in a form that is
read back as its parameters -/
theorem printed_family (f : Param.Family) (o : Param.Obj) (h : Reach f o) (hp : NoPrecision f o) (hf : o.frozen = true)
    (name : String) (hn : '(' ∉ name.toList) :
    ∃ t r, Printed.repr (ofParam name o) = .ok t ∧ readPrinted t = some (name.toList, r) ∧ r.length = o.names.length ∧
      ∀ i (hi : i < r.length), ∃ x y, (o.params.getD [])[i]? = some (some x) ∧
        r[i].1 = (o.names[i]?.getD "").toList ∧ r[i].2 = .num (.real y) ∧ |y - x| ≤ |x| / 200 := by
  obtain ⟨vals, hd, hpar⟩ := (Param.reach_inv f o h).1 hf hp
  obtain ⟨xs, hl, hr⟩ := report_some f _ vals hp hd
  rw [hr] at hpar
  have hps : (ofParam name o).params = xs.map fun x => Value.num (.real x) := by
    simp [ofParam, hpar]
  obtain ⟨t, r, h1, h2, h3⟩ := printed_reads (ofParam name o) hf ⟨hn, exactNames_clean f o.names hp⟩ (by
    rw [hps]; intro v hv; obtain ⟨x, -, rfl⟩ := List.mem_map.mp hv; simp)
  have hlen : r.length = o.names.length := by
    rw [← h3.length_eq, List.length_zip, hps]; simp [ofParam, hl]
  refine ⟨t, r, h1, h2, hlen, fun i hi => ?_⟩
  have hi' : i < o.names.length := hlen ▸ hi
  have hx : i < xs.length := hl ▸ hi'
  have hz : i < ((ofParam name o).names.zip (ofParam name o).params).length := h3.length_eq ▸ hi
  obtain ⟨e1, e2⟩ := (List.forall₂_iff_get.mp h3).2 i hz hi
  have e3 : ((ofParam name o).names.zip (ofParam name o).params).get ⟨i, hz⟩ = (o.names[i].toList, .num (.real xs[i])) := by
    simp [hps]; simp [ofParam]
  rw [e3] at e1 e2
  have e2' : (Value.num (.real xs[i])).Reads r[i].2 := e2
  have e1' : o.names[i].toList = r[i].1 := e1
  have e4 : o.names[i]? = some o.names[i] := List.getElem?_eq_getElem hi'
  rcases hq : r[i].2 with q | q <;> rw [hq] at e2'
  · rcases q with y | _ | _ | _
    · exact ⟨xs[i], y, by simp [hpar, hx], by rw [e4]; exact e1'.symm, rfl, e2'⟩
    all_goals exact absurd e2' (by simp [Value.Reads, Num.Reads])
  · exact absurd e2' (by simp [Value.Reads])

/-! ## What is not printed, and what is lost -/

/-- a distribution marked as complete with a parameter that is `None` cannot be printed -/
theorem printed_missing (o : Obj) (hf : o.frozen = true) (h : ∃ p ∈ o.names.zip o.params, p.2 = .missing) :
    Printed.repr o = .error .typeError := by
  simp [Printed.repr, description, hf, mapM_missing _ h]

/-- such objects exist: a complete `Uniform`, given a lower bound only (a refused `maxent(dist, …, fixed_params={"lower": 0})`
leaves it in this state) -/
theorem printed_missing_reached :
    ∃ o o', Param.construct (.simple .uniform)
        (fun k => if k = "lower" then some 0 else if k = "upper" then some 1 else none) = .ok o ∧
      Param.parametrize (.simple .uniform) (fun k => if k = "lower" then some 0 else none) o = .ok o' ∧
      o.frozen = true ∧ (∃ t, Printed.repr (ofParam "Uniform" o) = .ok t) ∧
      Printed.repr (ofParam "Uniform" o') = .error .typeError := by
  refine ⟨_, _, rfl, rfl, ?_, ?_, ?_⟩
  · simp [Param.simpleParam, Param.simpleFam, Param.simpleUpdate, Param.allNotNone]
  · refine ⟨_, (repr_text _ ?_ ?_ ?_)⟩
    · simp [ofParam, Param.simpleParam, Param.simpleFam, Param.simpleUpdate, Param.allNotNone]
    · simp [ofParam, Param.simpleParam, Param.simpleFam, Param.simpleUpdate, Param.allNotNone]
    · have e : (ofParam "Uniform" (Param.simpleParam (Param.simpleFam .uniform)
        (fun k => if k = "lower" then some 0 else if k = "upper" then some 1 else none) Param.blank)).names =
          ["lower".toList, "upper".toList] := by
        simp [ofParam, Param.simpleParam, Param.simpleFam, Param.simpleUpdate, Param.allNotNone, Param.Obj.setAll, Param.Obj.set]
      rw [e]; decide +kernel
  · refine printed_missing _ ?_ ⟨("upper".toList, .missing), ?_, rfl⟩
    · simp [ofParam, Param.simpleParam, Param.simpleFam, Param.simpleUpdate, Param.allNotNone, Param.Obj.setAll, Param.Obj.set]
    · simp [ofParam, Param.simpleParam, Param.simpleFam, Param.simpleUpdate, Param.allNotNone, Param.Obj.setAll, Param.Obj.set]

private theorem log_thousand {x : ℝ} (h1 : 1000 ≤ x) (h2 : x < 10000) : Int.log 10 x = 3 := by
  have hx : 0 < x := by linarith
  have a : (3 : ℤ) ≤ Int.log 10 x := by
    rw [← Int.zpow_le_iff_le_log (by norm_num) hx]; norm_num; exact h1
  have b : Int.log 10 x < 4 := by
    rw [← Int.lt_zpow_iff_log_lt (by norm_num) hx]; norm_num; exact h2
  omega

private theorem g3_thousand : g3 1000 = "1e+03".toList ∧ g3 1001 = "1e+03".toList := by
  have s1 : sig3 1000 = (100, 3) := by
    simp only [sig3, log_thousand le_rfl (by norm_num : (1000 : ℝ) < 10000)]
    norm_num [roundEven]
  have s2 : sig3 1001 = (100, 3) := by
    simp only [sig3, log_thousand (by norm_num : (1000 : ℝ) ≤ 1001) (by norm_num)]
    have : ⌊(1001 : ℝ) / 10⌋₊ = 100 := by rw [Nat.floor_eq_iff (by norm_num)]; norm_num
    norm_num [roundEven, this]
  constructor <;> simp only [g3, s1, s2] <;> norm_num <;> decide +kernel

/-- the printed form does not determine the distribution: `Uniform(0, 1000)` and `Uniform(0, 1001)` look the same, and
`Uniform(1000, 1001)` is printed with two equal bounds -/
theorem printed_not_injective :
    Printed.repr ⟨"Uniform".toList, ["lower".toList, "upper".toList], [.num (.real 0), .num (.real 1000)], true⟩ =
        Printed.repr ⟨"Uniform".toList, ["lower".toList, "upper".toList], [.num (.real 0), .num (.real 1001)], true⟩ ∧
      Printed.repr ⟨"Uniform".toList, ["lower".toList, "upper".toList], [.num (.real 1000), .num (.real 1001)], true⟩ =
        .ok "Uniform(lower=1e+03, upper=1e+03)".toList := by
  have hn : ∀ n ∈ ["lower".toList, "upper".toList], n ≠ [] ∧ ∀ c ∈ n, c ∉ seps := by decide +kernel
  rw [repr_text _ rfl (by simp) hn, repr_text _ rfl (by simp) hn, repr_text _ rfl (by simp) hn]
  simp only [List.zip_cons_cons, List.zip_nil_right, List.map_cons, List.map_nil, joinC, body, Num.text, g3_thousand.1,
    g3_thousand.2]
  exact ⟨trivial, by decide +kernel⟩

/-- names of different kinds of distributions coincide: a truncated `Normal` and `TruncatedNormal`; mixtures of any number
of components of the same family -/
theorem printed_names_clash :
    getName (.wrapped "Truncated" "Normal") = getName (.plain "TruncatedNormal") ∧
      ∀ n : ℕ, getName (.mixture (List.replicate (n + 1) "Normal")) = "MixtureNormal" := by
  refine ⟨by decide +kernel, fun n => ?_⟩
  have : ∀ n, firsts (List.replicate (n + 1) "Normal") = ["Normal"] := by
    intro n
    induction n with
    | zero => rfl
    | succ n ih => rw [List.replicate_succ, firsts, ih]; rfl
  rw [getName, this]; rfl

/-! ## Use in the text of a model -/

private theorem split_pre {x : Char} {a : List Char} (h : x ∉ a) : ∀ cur t,
    splitChar x cur (a ++ t) = splitChar x (cur ++ a) t := by
  induction a with
  | nil => simp
  | cons c a ih =>
    intro cur t
    simp only [List.mem_cons, not_or] at h
    rw [List.cons_append, splitChar, if_neg (Ne.symm h.1), ih h.2]; simp

private theorem split_two {x : Char} {a b : List Char} (ha : x ∉ a) (hb : x ∉ b) : splitChar x [] (a ++ x :: b) = [a, b] := by
  rw [split_pre ha, splitChar, if_pos rfl]
  have := split_pre hb [] []
  simp only [List.append_nil, List.nil_append] at this ⊢
  rw [this]; rfl

/-- the text of a complete distribution falls into its name and the rest, so that the text of a model can be written from it -/
theorem printed_splits (o : Obj) (hf : o.frozen = true) (hc : CleanNames o) (hm : ∀ v ∈ o.params, v ≠ .missing) :
    ∃ r, nameAndParams o = .ok (o.name, r ++ [')']) ∧ Printed.repr o = .ok (o.name ++ '(' :: r ++ [')']) ∧ '(' ∉ r ∧ ')' ∉ r := by
  have ht := repr_text o hf hm hc.2
  set r := joinC ((o.names.zip o.params).map fun p => p.1 ++ '=' :: body p.2) with hr
  have key : ∀ c ∈ r, c ≠ '(' ∧ c ≠ ')' := by
    refine joinC_chars _ (fun c => c ≠ '(' ∧ c ≠ ')') ?_ (by decide) (by decide)
    intro t ht c hct
    obtain ⟨p, hp, rfl⟩ := List.mem_map.mp ht
    have sepc : ∀ c, c ∉ seps → c ≠ '(' ∧ c ≠ ')' := by
      intro c h; simp only [seps, List.mem_cons, not_or] at h; exact ⟨h.2.2.2.2.2.1, h.2.2.2.2.2.2.1⟩
    rcases List.mem_append.mp hct with h | h
    · exact sepc c ((hc.2 p.1 (List.of_mem_zip hp).1).2 c h)
    · rcases List.mem_cons.mp h with rfl | h
      · decide
      · rcases hv : p.2 with _ | v | l
        · exact absurd hv (hm _ (List.of_mem_zip hp).2)
        · rw [hv] at h; exact sepc c ((text_plain v).1 c h)
        · rw [hv] at h
          simp only [body, List.cons_append, List.mem_cons, List.mem_append, List.not_mem_nil, or_false] at h
          rcases h with rfl | h | rfl
          · decide
          · refine joinC_chars _ (fun c => c ≠ '(' ∧ c ≠ ')') ?_ (by decide) (by decide) c h
            intro t ht c hct
            obtain ⟨v, -, rfl⟩ := List.mem_map.mp ht
            exact sepc c ((text_plain v).1 c hct)
          · decide
  have h1 : '(' ∉ r := fun h => (key _ h).1 rfl
  have h2 : ')' ∉ r := fun h => (key _ h).2 rfl
  refine ⟨r, ?_, ht, h1, h2⟩
  have hb : '(' ∉ r ++ [')'] := by simp [h1]
  unfold nameAndParams
  rw [ht]
  simp only [Except.ok_bind']
  rw [show o.name ++ '(' :: r ++ [')'] = o.name ++ '(' :: (r ++ [')']) by simp, split_two hc.1 hb]
  rfl

/-- an incomplete distribution cannot be written into the text of a model -/
theorem printed_incomplete_refused (o : Obj) (hf : o.frozen = false) (hn : '(' ∉ o.name) :
    nameAndParams o = .error .valueError := by
  unfold nameAndParams
  rw [printed_incomplete o hf]
  have := split_pre hn [] []
  simp only [List.append_nil, List.nil_append] at this
  simp only [Except.ok_bind', this]
  rfl

/-- the conditions are met by a `Normal(0, 12.5)` -/
example : ∃ r, nameAndParams ⟨"Normal".toList, ["mu".toList, "sigma".toList], [.num (.real 0), .num (.real 12.5)], true⟩ =
    .ok ("Normal".toList, r ++ [')']) := by
  obtain ⟨r, h, -⟩ := printed_splits ⟨"Normal".toList, ["mu".toList, "sigma".toList], [.num (.real 0), .num (.real 12.5)], true⟩
    rfl ⟨by decide, by decide +kernel⟩ (by simp)
  exact ⟨r, h⟩

/-- and by an array next to an infinite bound -/
example : ∃ t r, Printed.repr ⟨"F".toList, ["p".toList, "upper".toList], [.vec [.real (1 / 3), .real (2 / 3)], .num .posInf], true⟩ = .ok t ∧
    readPrinted t = some ("F".toList, r) ∧ r.length = 2 := by
  obtain ⟨t, r, h1, h2, h3⟩ := printed_reads
    ⟨"F".toList, ["p".toList, "upper".toList], [.vec [.real (1 / 3), .real (2 / 3)], .num .posInf], true⟩
    rfl ⟨by decide, by decide +kernel⟩ (by simp)
  exact ⟨t, r, h1, h2, by rw [← h3.length_eq]; rfl⟩

/-- `0.00125` has three digits and is printed exactly -/
example : readNumber (g3 (125 * 10 ^ (-5 : ℤ))) = some (125 * 10 ^ (-5 : ℤ)) := by
  have := printed_exact 125 (by norm_num) (-5)
  simpa using this

end Verif.Props
