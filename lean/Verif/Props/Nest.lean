import Verif.Spec.Nest
import Mathlib.Tactic

/-!
# C145: modifiers around modified distributions
-/

namespace Verif.Props
open Verif Verif.Wrapper Verif.Nest

/-! ## Dictionaries -/

private theorem lookup_ne {n a : String} (h : n ≠ a) (x : Option Val) (l : Kw) :
    List.lookup n ((a, x) :: l) = List.lookup n l := by
  rw [List.lookup_cons, show (n == a) = false by simpa using h]

private theorem lookup_put (d : Kw) (k n : String) (v : Option Val) :
    (put d k v).lookup n = if n = k then some v else d.lookup n := by
  unfold put
  split
  · rename_i h
    rw [List.any_eq_true] at h
    induction d with
    | nil => simp at h
    | cons p d ih =>
      obtain ⟨a, x⟩ := p
      by_cases ha : a = k
      · subst ha
        by_cases hn : n = a
        · subst hn; simp
        · have : (List.lookup n (d.map fun p => if p.1 = a then (a, v) else p)) = d.lookup n := by
            clear ih h
            induction d with
            | nil => rfl
            | cons q d ih =>
              obtain ⟨b, y⟩ := q
              by_cases hb : b = a
              · subst hb
                simp only [List.map_cons, if_true]
                rw [lookup_ne hn, lookup_ne hn, ih]
              · by_cases hnb : n = b
                · subst hnb; simp [hb]
                · simp only [List.map_cons, hb, if_false]
                  rw [lookup_ne hnb, lookup_ne hnb, ih]
          simp only [List.map_cons, if_true, hn, if_false]
          rw [lookup_ne hn, lookup_ne hn, this]
      · have h' : ∃ x ∈ d, decide (x.1 = k) = true := by
          obtain ⟨q, hq, hk⟩ := h
          rcases List.mem_cons.1 hq with rfl | hq
          · simp [ha] at hk
          · exact ⟨q, hq, hk⟩
        have := ih h'
        by_cases hn : n = a
        · subst hn; simp [ha]
        · simp only [List.map_cons, ha, if_false]
          rw [lookup_ne hn, lookup_ne hn, this]
  · rename_i h
    rw [List.lookup_append]
    by_cases hn : n = k
    · subst hn
      have : d.lookup n = none := by
        rw [List.lookup_eq_none_iff]
        intro p hp
        simp only [List.any_eq_true, decide_eq_true_eq, not_exists, not_and] at h
        simpa using fun e => h p hp e.symm
      simp [this]
    · rw [lookup_ne hn]
      simp [hn]

private theorem mem_put {d : Kw} {k : String} {v : Option Val} {p : String × Option Val}
    (h : p ∈ put d k v) : p ∈ d ∨ p = (k, v) := by
  unfold put at h
  split at h
  · obtain ⟨q, hq, rfl⟩ := List.mem_map.1 h
    split
    · exact Or.inr rfl
    · exact Or.inl hq
  · simpa using h

private theorem dict_concat (kvs : Kw) (p : String × Option Val) :
    dict (kvs ++ [p]) = put (dict kvs) p.1 p.2 := by simp [dict]

private theorem lookup_dict (kvs : Kw) (n : String) : (dict kvs).lookup n = kvs.reverse.lookup n := by
  induction kvs using List.reverseRecOn with
  | nil => rfl
  | append_singleton kvs p ih =>
    rw [dict_concat, lookup_put, List.reverse_append, ih]
    obtain ⟨a, x⟩ := p
    by_cases h : n = a
    · subst h; simp
    · rw [if_neg h]
      exact (lookup_ne h x _).symm

private theorem mem_dict {kvs : Kw} {p : String × Option Val} (h : p ∈ dict kvs) : p ∈ kvs := by
  induction kvs using List.reverseRecOn with
  | nil => simp [dict] at h
  | append_singleton kvs q ih =>
    rw [dict_concat] at h
    rcases mem_put h with h | h
    · simp [ih h]
    · simp [h]

private theorem lookup_filter (l : Kw) (ks : List String) (n : String) :
    (l.filter fun p => p.1 ∉ ks).lookup n = if n ∈ ks then none else l.lookup n := by
  induction l with
  | nil => simp
  | cons p l ih =>
    obtain ⟨a, x⟩ := p
    by_cases ha : a ∈ ks
    · by_cases hn : n = a
      · subst hn; simp [ha] at ih ⊢; exact ih
      · have e : (n == a) = false := by simpa using hn
        simp only [List.filter_cons, ha, List.lookup_cons, e]
        simpa using ih
    · by_cases hn : n = a
      · subst hn; simp [ha]
      · have e : (n == a) = false := by simpa using hn
        have : decide (a ∉ ks) = true := by simpa using ha
        rw [List.filter_cons_of_pos (by simpa using ha), List.lookup_cons, List.lookup_cons, e]
        exact ih

private theorem lookup_zip {ns : List String} {vs : List (Option Val)} (h : ns.Nodup)
    (hl : vs.length = ns.length) {p : String × Option Val} (hp : p ∈ ns.zip vs) :
    (ns.zip vs).lookup p.1 = some p.2 := by
  induction ns generalizing vs with
  | nil => simp at hp
  | cons n ns ih =>
    cases vs with
    | nil => simp at hl
    | cons v vs =>
      rw [List.zip_cons_cons, List.mem_cons] at hp
      rcases hp with rfl | hp
      · simp
      · have hne : p.1 ≠ n := by
          rintro rfl
          exact (List.nodup_cons.1 h).1 (List.of_mem_zip (a := p.1) (b := p.2) hp).1
        rw [List.zip_cons_cons, List.lookup_cons, show (p.1 == n) = false by simpa using hne]
        exact ih (List.nodup_cons.1 h).2 (by simpa using hl) hp

private theorem dict_nodup {kvs : Kw} (h : (kvs.map Prod.fst).Nodup) : dict kvs = kvs := by
  induction kvs using List.reverseRecOn with
  | nil => rfl
  | append_singleton kvs p ih =>
    rw [List.map_append, List.nodup_append] at h
    rw [dict_concat, ih h.1, put, if_neg]
    simp only [List.any_eq_true, decide_eq_true_eq, not_exists, not_and]
    intro q hq e
    exact h.2.2 q.1 (List.mem_map_of_mem hq) p.1 (by simp) e

private theorem lookup_reverse_zip {ns : List String} {vs : List (Option Val)} (h : ns.Nodup)
    (hl : vs.length = ns.length) {p : String × Option Val} (hp : p ∈ ns.zip vs) :
    (ns.zip vs).reverse.lookup p.1 = some p.2 := by
  have hd : dict (ns.zip vs) = ns.zip vs := dict_nodup (by rw [List.map_fst_zip (by omega)]; exact h)
  rw [← lookup_dict, hd]
  exact lookup_zip h hl hp

private theorem lookup_none {ns : List String} {vs : List (Option Val)} {n : String} (h : n ∉ ns) :
    (ns.zip vs).reverse.lookup n = none := by
  rw [List.lookup_eq_none_iff]
  intro p hp
  have := (List.of_mem_zip (a := p.1) (b := p.2) (List.mem_reverse.1 hp)).1
  simp only [bne_iff_ne, ne_eq]
  rintro rfl
  exact h this

/-! ## The own arguments -/

private theorem keys_eq (k : Kind) : keys k = ownNames k := by cases k <;> rfl

private theorem wanted_length {w : Kind × List (Option Val)} (h : Given w) :
    (wanted w).length = (keys w.1).length := by
  obtain ⟨k, own⟩ := w
  have := h.arity
  cases k
  · match own, this with
    | [l, u], _ => rfl
  · match own, this with
    | [l, u], _ => rfl
  · simpa [wanted, keys] using this

private theorem wanted_some {w : Kind × List (Option Val)} (h : Given w) : none ∉ wanted w := by
  obtain ⟨k, own⟩ := w
  have := h.arity
  cases k
  · match own, this with
    | [l, u], _ => simp [wanted]
  · match own, this with
    | [l, u], _ => simp [wanted]
  · exact h.psi rfl

private theorem own_first {w : Kind × List (Option Val)} (h : Given w) :
    ((keys w.1).map fun n => fill w.1 n (((keys w.1).zip w.2).lookup n).join) = wanted w := by
  obtain ⟨k, own⟩ := w
  have := h.arity
  cases k
  · match own, this with
    | [l, u], _ => cases l <;> cases u <;> simp [wanted, keys, fill, List.lookup]
  · match own, this with
    | [l, u], _ => cases l <;> cases u <;> simp [wanted, keys, fill, List.lookup]
  · match own, this with
    | [p], _ => simp [wanted, keys, fill, List.lookup]

/-- the own arguments of a layer whose keywords are found -/
private theorem own_found {w : Kind × List (Option Val)} (h : Given w) {kw : Kw}
    (hk : ∀ p ∈ (keys w.1).zip (wanted w), kw.lookup p.1 = some p.2) :
    ((keys w.1).map fun n => fill w.1 n (kw.lookup n).join) = wanted w := by
  obtain ⟨k, own⟩ := w
  have := h.arity
  cases k
  · match own, this with
    | [l, u], _ =>
      have h1 := hk ("lower", some (l.getD (.num ⊥))) (by simp [keys, wanted])
      have h2 := hk ("upper", some (u.getD (.num ⊤))) (by simp [keys, wanted])
      simp only at h1 h2
      simp [keys, wanted, fill, h1, h2]
  · match own, this with
    | [l, u], _ =>
      have h1 := hk ("lower", some (l.getD (.num ⊥))) (by simp [keys, wanted])
      have h2 := hk ("upper", some (u.getD (.num ⊤))) (by simp [keys, wanted])
      simp only at h1 h2
      simp [keys, wanted, fill, h1, h2]
  · match own, this with
    | [p], _ =>
      have h1 := hk ("psi", p) (by simp [keys, wanted])
      simp only at h1
      simp [keys, wanted, fill, h1]

private theorem keys_nodup (k : Kind) : (keys k).Nodup := by cases k <;> simp [keys]

/-! ## What is expected -/

private def fullNames (lf : Leaf) : List (Kind × List (Option Val)) → List String
  | [] => lf.names
  | w :: ws => fullNames lf ws ++ keys w.1

private noncomputable def fullVals (vals : List (Option Val)) : List (Kind × List (Option Val)) → List (Option Val)
  | [] => vals
  | w :: ws => fullVals vals ws ++ wanted w

private noncomputable def layersOf (lf : Leaf) (vals : List (Option Val)) :
    List (Kind × List (Option Val)) → List Layer
  | [] => []
  | w :: ws => ⟨w.1, wanted w, fullNames lf (w :: ws), fullVals vals (w :: ws), true⟩ :: layersOf lf vals ws

private theorem namesOf_layers (lf : Leaf) (vals : List (Option Val)) (ws : List (Kind × List (Option Val))) :
    namesOf lf (layersOf lf vals ws) = fullNames lf ws := by cases ws <;> rfl

private theorem paramsOf_layers (lf : Leaf) (vals : List (Option Val)) (ws : List (Kind × List (Option Val))) :
    paramsOf vals (layersOf lf vals ws) = fullVals vals ws := by cases ws <;> rfl

private theorem noClash_names (lf : Leaf) (ws : List (Kind × List (Option Val))) :
    NoClash lf ws ↔ (fullNames lf ws).Nodup := by
  unfold NoClash
  have : fullNames lf ws = lf.names ++ (ws.reverse.map fun w => ownNames w.1).flatten := by
    induction ws with
    | nil => simp [fullNames]
    | cons w ws ih => simp [fullNames, ih, keys_eq]
  rw [this]

private theorem full_length {lf : Leaf} {vals : List (Option Val)} (hc : Complete lf vals)
    (ws : List (Kind × List (Option Val))) (hg : ∀ w ∈ ws, Given w) :
    (fullVals vals ws).length = (fullNames lf ws).length := by
  induction ws with
  | nil => exact hc.length
  | cons w ws ih =>
    simp only [fullVals, fullNames, List.length_append, wanted_length (hg w (by simp)),
      ih fun w' h => hg w' (by simp [h])]

private theorem full_some {lf : Leaf} {vals : List (Option Val)} (hc : Complete lf vals)
    (ws : List (Kind × List (Option Val))) (hg : ∀ w ∈ ws, Given w) : none ∉ fullVals vals ws := by
  induction ws with
  | nil => exact hc.given
  | cons w ws ih =>
    simp only [fullVals, List.mem_append, not_or]
    exact ⟨ih fun w' h => hg w' (by simp [h]), wanted_some (hg w (by simp))⟩

private theorem zip_fst {ns : List String} {vs : List (Option Val)} (h : vs.length = ns.length) :
    (ns.zip vs).map Prod.fst = ns := List.map_fst_zip (by omega)

private theorem zip_snd {ns : List String} {vs : List (Option Val)} (h : vs.length = ns.length) :
    (ns.zip vs).map Prod.snd = vs := List.map_snd_zip (by omega)

private theorem all_some {l : List (Option Val)} (h : none ∉ l) : l.all Option.isSome = true := by
  rw [List.all_eq_true]
  intro x hx
  cases x with
  | none => exact absurd hx h
  | some _ => rfl

private theorem leaf_kept {lf : Leaf} {vals : List (Option Val)} (hc : Complete lf vals) :
    reparam lf [] vals (lf.names.zip vals) = .ok ([], vals) := by
  unfold reparam
  rw [if_pos]
  · congr 2
    have : ∀ p ∈ lf.names.zip vals, ((lf.names.zip vals).lookup p.1).join.or (lf.missing p.1 p.2) = p.2 := by
      intro p hp
      rw [lookup_zip hc.nodup hc.length hp]
      have : p.2 ≠ none := fun e => hc.given (e ▸ (List.of_mem_zip (a := p.1) (b := p.2) hp).2)
      obtain ⟨v, hv⟩ := Option.ne_none_iff_exists'.1 this
      rw [hv]; rfl
    rw [List.map_congr_left this]
    exact zip_snd hc.length
  · rw [List.all_eq_true]
    intro p hp
    simpa using hc.accepts _ (List.of_mem_zip (a := p.1) (b := p.2) hp).1

/-- a call with all parameters changes nothing -/
private theorem layers_kept {lf : Leaf} {vals : List (Option Val)} (hc : Complete lf vals) :
    ∀ (ws : List (Kind × List (Option Val))), (∀ w ∈ ws, Given w) → (fullNames lf ws).Nodup →
      reparam lf (layersOf lf vals ws) vals ((fullNames lf ws).zip (fullVals vals ws)) =
        .ok (layersOf lf vals ws, vals)
  | [], _, _ => leaf_kept hc
  | w :: ws, hg, hn => by
    have hgw : Given w := hg w (by simp)
    have hg' : ∀ w' ∈ ws, Given w' := fun w' h => hg w' (by simp [h])
    have hlen := full_length hc ws hg'
    have hn' := List.nodup_append.1 hn
    have hzip : (fullNames lf (w :: ws)).zip (fullVals vals (w :: ws)) =
        (fullNames lf ws).zip (fullVals vals ws) ++ (keys w.1).zip (wanted w) :=
      List.zip_append hlen.symm
    have hdis : ∀ p ∈ (fullNames lf ws).zip (fullVals vals ws), p.1 ∉ keys w.1 := by
      intro p hp hk
      exact hn'.2.2 p.1 (List.of_mem_zip (a := p.1) (b := p.2) hp).1 p.1 hk rfl
    have hrest : (((fullNames lf (w :: ws)).zip (fullVals vals (w :: ws))).filter
        fun p => decide (p.1 ∉ keys w.1)) = (fullNames lf ws).zip (fullVals vals ws) := by
      rw [hzip, List.filter_append]
      have h1 : ((fullNames lf ws).zip (fullVals vals ws)).filter (fun p => decide (p.1 ∉ keys w.1)) =
          (fullNames lf ws).zip (fullVals vals ws) := by
        rw [List.filter_eq_self]
        intro p hp
        simpa using hdis p hp
      have h2 : ((keys w.1).zip (wanted w)).filter (fun p => decide (p.1 ∉ keys w.1)) = [] := by
        rw [List.filter_eq_nil_iff]
        intro p hp
        simpa using (List.of_mem_zip (a := p.1) (b := p.2) hp).1
      rw [h1, h2, List.append_nil]
    have hown : ((keys w.1).map fun n => fill w.1 n
        ((((fullNames lf (w :: ws)).zip (fullVals vals (w :: ws))).lookup n).join)) = wanted w := by
      apply own_found hgw
      intro p hp
      exact lookup_zip hn (full_length hc (w :: ws) hg) (by rw [hzip]; simp [hp])
    have hd : dict ((fullNames lf ws).zip (fullVals vals ws)) = (fullNames lf ws).zip (fullVals vals ws) :=
      dict_nodup (by rw [zip_fst hlen]; exact hn'.1)
    rw [layersOf, reparam]
    simp only [hrest, hown, namesOf_layers, paramsOf_layers, hd, ite_self]
    rw [zip_snd hlen, if_pos (all_some (full_some hc ws hg')), layers_kept hc ws hg' hn'.1]
    rfl

private theorem build_kept {lf : Leaf} {vals : List (Option Val)} (hc : Complete lf vals) :
    ∀ (ws : List (Kind × List (Option Val))), (∀ w ∈ ws, Given w) → NoClash lf ws.tail →
      build lf vals ws = .ok (layersOf lf vals ws, vals)
  | [], _, _ => rfl
  | w :: ws, hg, hn => by
    have hgw : Given w := hg w (by simp)
    have hg' : ∀ w' ∈ ws, Given w' := fun w' h => hg w' (by simp [h])
    rw [List.tail_cons, noClash_names] at hn
    have hlen := full_length hc ws hg'
    have hn2 : NoClash lf ws.tail := by
      rw [noClash_names]
      cases ws with
      | nil => exact hn
      | cons w' ws' => exact (List.nodup_append.1 hn).1
    have hrest : (((keys w.1).zip w.2).filter fun p => decide (p.1 ∉ keys w.1)) = [] := by
      rw [List.filter_eq_nil_iff]
      intro p hp
      simpa using (List.of_mem_zip (a := p.1) (b := p.2) hp).1
    have hd : dict ((fullNames lf ws).zip (fullVals vals ws)) = (fullNames lf ws).zip (fullVals vals ws) :=
      dict_nodup (by rw [zip_fst hlen]; exact hn)
    rw [build, build_kept hc ws hg' hn2]
    simp only [Nest.wrap]
    rw [reparam]
    simp only [hrest, own_first hgw, namesOf_layers, paramsOf_layers, hd, List.isEmpty_nil, if_true]
    rw [zip_snd hlen, if_pos (all_some (full_some hc ws hg')), layers_kept hc ws hg' hn]
    rfl

private theorem full_length' {lf : Leaf} {vals : List (Option Val)} (hc : vals.length = lf.names.length)
    (ws : List (Kind × List (Option Val))) (hg : ∀ w ∈ ws, Given w) :
    (fullVals vals ws).length = (fullNames lf ws).length := by
  induction ws with
  | nil => exact hc
  | cons w ws ih =>
    simp only [fullVals, fullNames, List.length_append, wanted_length (hg w (by simp)),
      ih fun w' h => hg w' (by simp [h])]

private noncomputable def openLayers (lf : Leaf) (vals : List (Option Val)) :
    List (Kind × List (Option Val)) → List Layer
  | [] => []
  | w :: ws => ⟨w.1, wanted w, fullNames lf (w :: ws), fullVals vals (w :: ws), false⟩ :: openLayers lf vals ws

private theorem build_open {lf : Leaf} {vals : List (Option Val)} (hl : vals.length = lf.names.length) (hv : none ∈ vals) :
    ∀ (ws : List (Kind × List (Option Val))), (∀ w ∈ ws, Given w) → NoClash lf ws.tail →
      build lf vals ws = .ok (openLayers lf vals ws, vals)
  | [], _, _ => rfl
  | w :: ws, hg, hn => by
    have hgw : Given w := hg w (by simp)
    have hg' : ∀ w' ∈ ws, Given w' := fun w' h => hg w' (by simp [h])
    rw [List.tail_cons, noClash_names] at hn
    have hlen := full_length' hl ws hg'
    have hn2 : NoClash lf ws.tail := by
      rw [noClash_names]
      cases ws with
      | nil => exact hn
      | cons w' ws' => exact (List.nodup_append.1 hn).1
    have hrest : (((keys w.1).zip w.2).filter fun p => decide (p.1 ∉ keys w.1)) = [] := by
      rw [List.filter_eq_nil_iff]
      intro p hp
      simpa using (List.of_mem_zip (a := p.1) (b := p.2) hp).1
    have hd : dict ((fullNames lf ws).zip (fullVals vals ws)) = (fullNames lf ws).zip (fullVals vals ws) :=
      dict_nodup (by rw [zip_fst hlen]; exact hn)
    have hN : namesOf lf (openLayers lf vals ws) = fullNames lf ws := by cases ws <;> rfl
    have hP : paramsOf vals (openLayers lf vals ws) = fullVals vals ws := by cases ws <;> rfl
    have hno : ¬ ((fullVals vals ws).all Option.isSome = true) := by
      rw [List.all_eq_true]
      intro h
      have : ∀ ws : List (Kind × List (Option Val)), none ∈ fullVals vals ws := by
        intro ws
        induction ws with
        | nil => exact hv
        | cons w ws ih => exact List.mem_append_left _ ih
      simpa using h none (this ws)
    rw [build, build_open hl hv ws hg' hn2]
    simp only [Nest.wrap]
    rw [reparam]
    simp only [hrest, own_first hgw, hN, hP, hd, List.isEmpty_nil, if_true]
    rw [zip_snd hlen, if_neg hno]
    rfl

/-- C145: around a distribution that lacks a parameter, nothing is passed inwards: every modifier keeps its own arguments, none
of them is complete, and the outermost one lists the missing parameters as missing. -/
theorem nested_incomplete {lf : Leaf} {vals : List (Option Val)} (hl : vals.length = lf.names.length) (hv : none ∈ vals)
    (ws : List (Kind × List (Option Val))) (hg : ∀ w ∈ ws, Given w) (hn : NoClash lf ws.tail) :
    ∃ Ls, build lf vals ws = .ok (Ls, vals) ∧
      Ls.map (fun L => (L.kind, L.own)) = ws.map (fun w => (w.1, wanted w)) ∧
      (∀ L ∈ Ls, L.frozen = false) ∧ (∀ L ∈ Ls, none ∈ L.params) ∧
      ∀ L ∈ Ls.head?, L.names = lf.names ++ (ws.reverse.map fun w => ownNames w.1).flatten ∧
        L.params = vals ++ (ws.reverse.map wanted).flatten := by
  have hN : ∀ ws : List (Kind × List (Option Val)),
      fullNames lf ws = lf.names ++ (ws.reverse.map fun w => ownNames w.1).flatten := by
    intro ws
    induction ws with
    | nil => simp [fullNames]
    | cons w ws ih => simp [fullNames, ih, keys_eq]
  have hV : ∀ ws : List (Kind × List (Option Val)),
      fullVals vals ws = vals ++ (ws.reverse.map wanted).flatten := by
    intro ws
    induction ws with
    | nil => simp [fullVals]
    | cons w ws ih => simp [fullVals, ih]
  refine ⟨_, build_open hl hv ws hg hn, ?_, ?_, ?_, ?_⟩
  · clear hn hg
    induction ws with
    | nil => rfl
    | cons w ws ih => simp [openLayers, ih]
  · clear hn hg
    induction ws with
    | nil => simp [openLayers]
    | cons w ws ih => simpa [openLayers] using ih
  · clear hn hg
    induction ws with
    | nil => simp [openLayers]
    | cons w ws ih =>
      intro L hL
      simp only [openLayers, List.mem_cons] at hL
      rcases hL with rfl | hL
      · simp only
        rw [hV]
        exact List.mem_append_left _ hv
      · exact ih L hL
  · cases ws with
    | nil => simp [openLayers]
    | cons w ws =>
      intro L hL
      simp only [openLayers, List.head?_cons, Option.mem_def, Option.some.injEq] at hL
      subst hL
      exact ⟨hN _, hV _⟩

/-- C145 (partial: without the condition it fails, see below): if no two of the innermost distribution and the modifiers inside the outermost one share a parameter name, every
object of the nest keeps what it was given, is complete, and lists each parameter with its value. -/
theorem nested_kept_partial {lf : Leaf} {vals : List (Option Val)} (hc : Complete lf vals)
    (ws : List (Kind × List (Option Val))) (hg : ∀ w ∈ ws, Given w) (hn : NoClash lf ws.tail) :
    ∃ Ls, build lf vals ws = .ok (Ls, vals) ∧
      Ls.map (fun L => (L.kind, L.own)) = ws.map (fun w => (w.1, wanted w)) ∧
      (∀ L ∈ Ls, L.frozen = true) ∧
      ∀ L ∈ Ls.head?, L.names = lf.names ++ (ws.reverse.map fun w => ownNames w.1).flatten ∧
        L.params = vals ++ (ws.reverse.map wanted).flatten := by
  refine ⟨_, build_kept hc ws hg hn, ?_, ?_, ?_⟩
  · clear hn hg
    induction ws with
    | nil => rfl
    | cons w ws ih => simp [layersOf, ih]
  · clear hn hg
    induction ws with
    | nil => simp [layersOf]
    | cons w ws ih => simpa [layersOf] using ih
  · have hN : ∀ ws : List (Kind × List (Option Val)),
        fullNames lf ws = lf.names ++ (ws.reverse.map fun w => ownNames w.1).flatten := by
      intro ws
      induction ws with
      | nil => simp [fullNames]
      | cons w ws ih => simp [fullNames, ih, keys_eq]
    have hV : ∀ ws : List (Kind × List (Option Val)),
        fullVals vals ws = vals ++ (ws.reverse.map wanted).flatten := by
      intro ws
      induction ws with
      | nil => simp [fullVals]
      | cons w ws ih => simp [fullVals, ih]
    cases ws with
    | nil => simp [layersOf]
    | cons w ws =>
      intro L hL
      rw [layersOf, List.head?_cons, Option.mem_some_iff] at hL
      subst hL
      exact ⟨hN _, hV _⟩

/-- C145: a complete distribution that lists a parameter which its `_parametrization` does not accept, such as a Mixture,
cannot be wrapped at all. -/
theorem nested_refused {lf : Leaf} {vals : List (Option Val)} (hl : vals.length = lf.names.length) (hs : none ∉ vals)
    {n : String} (hn : n ∈ lf.names) (ha : n ∉ lf.accepts) (ws : List (Kind × List (Option Val))) (hne : ws ≠ []) :
    build lf vals ws = .error .typeError := by
  induction ws with
  | nil => exact absurd rfl hne
  | cons w ws ih =>
    cases ws with
    | cons w' ws' => rw [build, ih (by simp)]
    | nil =>
      have hrest : (((keys w.1).zip w.2).filter fun p => decide (p.1 ∉ keys w.1)) = [] := by
        rw [List.filter_eq_nil_iff]
        intro p hp
        simpa using (List.of_mem_zip (a := p.1) (b := p.2) hp).1
      have hsome : ((dict (lf.names.zip vals)).map Prod.snd).all Option.isSome = true := by
        apply all_some
        intro h
        obtain ⟨p, hp, e⟩ := List.mem_map.1 h
        exact hs (e ▸ (List.of_mem_zip (a := p.1) (b := p.2) (mem_dict hp)).2)
      have hbad : ¬ ((dict (lf.names.zip vals)).all fun p => decide (p.1 ∈ lf.accepts)) = true := by
        rw [List.all_eq_true]
        intro h
        have : (dict (lf.names.zip vals)).lookup n ≠ none := by
          rw [lookup_dict]
          intro e
          rw [List.lookup_eq_none_iff] at e
          obtain ⟨i, hi, rfl⟩ := List.mem_iff_getElem.1 hn
          have := e (lf.names[i], vals[i]'(by omega)) (by
            rw [List.mem_reverse, List.mem_iff_getElem]
            exact ⟨i, by simp; omega, by simp⟩)
          simp at this
        obtain ⟨v, hv⟩ := Option.ne_none_iff_exists'.1 this
        have hmem : ∃ p ∈ dict (lf.names.zip vals), p.1 = n := by
          by_contra hc
          push Not at hc
          rw [List.lookup_eq_none_iff.2 (by intro p hp; simpa using (hc p hp).symm)] at hv
          cases hv
        obtain ⟨p, hp, rfl⟩ := hmem
        exact ha (by simpa using h p hp)
      rw [build, build]
      simp only [Nest.wrap]
      rw [reparam]
      simp only [hrest, List.isEmpty_nil, if_true, namesOf, paramsOf]
      rw [if_pos hsome, reparam, if_neg hbad]

/-- one modifier around a distribution whose names are all taken from `kw` -/
private theorem reparam_rest {lf : Leaf} {L : Layer} {Ls : List Layer} {vals : List (Option Val)} {kw : Kw}
    (hne : (kw.filter fun p => decide (p.1 ∉ keys L.kind)) ≠ []) (hs : ∀ p ∈ kw, p.2 ≠ none)
    {r : List Layer × List (Option Val)}
    (hr : reparam lf Ls vals (kw.filter fun p => decide (p.1 ∉ keys L.kind)) = .ok r) :
    ∃ L', reparam lf (L :: Ls) vals kw = .ok (L' :: r.1, r.2) ∧ L'.kind = L.kind ∧
      L'.own = (keys L.kind).map fun n => fill L.kind n (kw.lookup n).join := by
  have he : (kw.filter fun p => decide (p.1 ∉ keys L.kind)).isEmpty = false := by
    rw [Bool.eq_false_iff]
    simpa only [ne_eq, List.isEmpty_iff] using hne
  have hall : ((kw.filter fun p => decide (p.1 ∉ keys L.kind)).map Prod.snd).all Option.isSome = true := by
    apply all_some
    intro h
    obtain ⟨p, hp, e⟩ := List.mem_map.1 h
    exact hs p (List.mem_of_mem_filter hp) e
  rw [reparam]
  simp only [he, Bool.false_eq_true, if_false]
  rw [if_pos hall, hr]
  exact ⟨_, rfl, rfl, rfl⟩

/-- the outermost modifier is created around complete layers -/
private theorem wrap_complete {lf : Leaf} {w : Kind × List (Option Val)} (hw : Given w) {Ls : List Layer}
    {vals : List (Option Val)} (hs : none ∉ paramsOf vals Ls) {r : List Layer × List (Option Val)}
    (hr : reparam lf Ls vals (dict ((namesOf lf Ls).zip (paramsOf vals Ls))) = .ok r) :
    ∃ L', Nest.wrap lf w.1 w.2 (Ls, vals) = .ok (L' :: r.1, r.2) ∧ L'.kind = w.1 ∧ L'.own = wanted w := by
  have hrest : (((keys w.1).zip w.2).filter fun p => decide (p.1 ∉ keys w.1)) = [] := by
    rw [List.filter_eq_nil_iff]
    intro p hp
    simpa using (List.of_mem_zip (a := p.1) (b := p.2) hp).1
  have hall : ((dict ((namesOf lf Ls).zip (paramsOf vals Ls))).map Prod.snd).all Option.isSome = true := by
    apply all_some
    intro h
    obtain ⟨p, hp, e⟩ := List.mem_map.1 h
    exact hs (e ▸ (List.of_mem_zip (a := p.1) (b := p.2) (mem_dict hp)).2)
  simp only [Nest.wrap]
  rw [reparam]
  simp only [hrest, own_first hw, List.isEmpty_nil, if_true]
  rw [if_pos hall, hr]
  exact ⟨_, rfl, rfl, rfl⟩

private theorem lookup_ne_nil {l : Kw} {n : String} {v : Option Val} (h : l.lookup n = some v) : l ≠ [] := by
  rintro rfl
  simp at h

private theorem exists_pair {ns : List String} {vs : List (Option Val)} (hl : vs.length = ns.length) {n : String}
    (h : n ∈ ns) : ∃ v, (n, v) ∈ ns.zip vs := by
  obtain ⟨i, hi, rfl⟩ := List.mem_iff_getElem.1 h
  exact ⟨vs[i]'(by omega), List.mem_iff_getElem.2 ⟨i, by simp; omega, by simp⟩⟩

/-- C145: the innermost distribution loses every parameter whose name the modifier next to it has too, as soon as a second
modifier, whichever, is put around both, unless all its names are names of that modifier. -/
theorem nested_leaf_lost {lf : Leaf} {vals : List (Option Val)} (hc : Complete lf vals)
    {w1 w2 : Kind × List (Option Val)} (h1 : Given w1) (h2 : Given w2) {n : String} (hn : n ∈ lf.names)
    (hn1 : n ∉ ownNames w1.1) :
    ∃ L2 L1, build lf vals [w2, w1] = .ok ([L2, L1], (lf.names.zip vals).map fun p =>
        if p.1 ∈ ownNames w1.1 then lf.missing p.1 p.2 else p.2) ∧
      L2.own = wanted w2 ∧ L1.own = wanted w1 := by
  rw [← keys_eq] at hn1 ⊢
  have hb := build_kept hc [w1] (by simpa using h1) (by simpa [NoClash] using hc.nodup)
  have hzip : (lf.names ++ keys w1.1).zip (vals ++ wanted w1) = lf.names.zip vals ++ (keys w1.1).zip (wanted w1) :=
    List.zip_append hc.length.symm
  have hs : none ∉ vals ++ wanted w1 := by
    rw [List.mem_append, not_or]; exact ⟨hc.given, wanted_some h1⟩
  set kw := dict ((lf.names ++ keys w1.1).zip (vals ++ wanted w1)) with hkw
  have hsk : ∀ p ∈ kw, p.2 ≠ none := fun p hp e =>
    hs (e ▸ (List.of_mem_zip (a := p.1) (b := p.2) (mem_dict hp)).2)
  have hlk1 : ∀ p ∈ (keys w1.1).zip (wanted w1), kw.lookup p.1 = some p.2 := by
    intro p hp
    rw [hkw, lookup_dict, hzip, List.reverse_append, List.lookup_append,
      lookup_reverse_zip (keys_nodup _) (wanted_length h1) hp]
    rfl
  have hlk0 : ∀ p ∈ lf.names.zip vals, p.1 ∉ keys w1.1 → kw.lookup p.1 = some p.2 := by
    intro p hp hk
    rw [hkw, lookup_dict, hzip, List.reverse_append, List.lookup_append, lookup_none hk,
      lookup_reverse_zip hc.nodup hc.length hp]
    rfl
  have hleaf : reparam lf [] vals (kw.filter fun p => decide (p.1 ∉ keys w1.1)) =
      .ok ([], (lf.names.zip vals).map fun p => if p.1 ∈ keys w1.1 then lf.missing p.1 p.2 else p.2) := by
    rw [reparam, if_pos]
    · congr 2
      apply List.map_congr_left
      intro p hp
      rw [lookup_filter]
      split
      · rfl
      · rename_i hk
        rw [hlk0 p hp hk]
        have : p.2 ≠ none := fun e => hc.given (e ▸ (List.of_mem_zip (a := p.1) (b := p.2) hp).2)
        obtain ⟨v, hv⟩ := Option.ne_none_iff_exists'.1 this
        rw [hv]; rfl
    · rw [List.all_eq_true]
      intro p hp
      obtain ⟨hp, hk⟩ := List.mem_filter.1 hp
      have := (List.of_mem_zip (a := p.1) (b := p.2) (mem_dict hp)).1
      rw [List.mem_append] at this
      simpa using hc.accepts _ (this.resolve_right (by simpa using hk))
  have hne : (kw.filter fun p => decide (p.1 ∉ keys w1.1)) ≠ [] := by
    obtain ⟨v, hv⟩ := exists_pair hc.length hn
    have := hlk0 _ hv hn1
    exact lookup_ne_nil (n := n) (v := v) (by rw [lookup_filter, if_neg hn1]; exact this)
  obtain ⟨L1, e1, _, o1⟩ := reparam_rest
    (L := ⟨w1.1, wanted w1, lf.names ++ keys w1.1, vals ++ wanted w1, true⟩) hne hsk hleaf
  obtain ⟨L2, e2, _, o2⟩ := wrap_complete (lf := lf) h2
    (Ls := layersOf lf vals [w1]) (vals := vals) (by exact hs) e1
  refine ⟨L2, L1, ?_, o2, ?_⟩
  · rw [build, hb]
    exact e2
  · rw [o1]
    exact own_found h1 hlk1

/-- C145: if two modifiers in a row have the same parameter names, the inner one loses its values as soon as a third one,
whichever, is put around them: its bounds become infinite, its psi becomes `None`. -/
theorem nested_inner_lost {lf : Leaf} {vals : List (Option Val)} (hc : Complete lf vals)
    {w1 w2 w3 : Kind × List (Option Val)} (h1 : Given w1) (h2 : Given w2) (h3 : Given w3)
    (h12 : ownNames w1.1 = ownNames w2.1) (hd : ∀ n ∈ lf.names, n ∉ ownNames w1.1) (hne0 : lf.names ≠ []) :
    ∃ L3 L2 L1, build lf vals [w3, w2, w1] = .ok ([L3, L2, L1], vals) ∧
      L3.own = wanted w3 ∧ L2.own = wanted w2 ∧
      (L1.own = if w1.1 = .hurdle then [none] else [some (.num ⊥), some (.num ⊤)]) ∧
      L3.kind = w3.1 ∧ L2.kind = w2.1 ∧ L1.kind = w1.1 := by
  simp only [← keys_eq] at h12 hd
  have hb := build_kept hc [w2, w1] (by simpa using ⟨h2, h1⟩) (by
    simp only [NoClash, List.tail_cons, List.reverse_cons, List.reverse_nil, List.nil_append, List.map_cons,
      List.map_nil, List.flatten_cons, List.flatten_nil, List.append_nil, ← keys_eq]
    rw [List.nodup_append]
    exact ⟨hc.nodup, keys_nodup _, fun a ha b hb e => hd a ha (e ▸ hb)⟩)
  have hz1 : (lf.names ++ keys w1.1 ++ keys w2.1).zip (vals ++ wanted w1 ++ wanted w2) =
      lf.names.zip vals ++ (keys w1.1).zip (wanted w1) ++ (keys w2.1).zip (wanted w2) := by
    rw [List.zip_append (by simp [hc.length, wanted_length h1]), List.zip_append hc.length.symm]
  have hs : none ∉ vals ++ wanted w1 ++ wanted w2 := by
    simp only [List.mem_append, not_or]; exact ⟨⟨hc.given, wanted_some h1⟩, wanted_some h2⟩
  set kw := dict ((lf.names ++ keys w1.1 ++ keys w2.1).zip (vals ++ wanted w1 ++ wanted w2)) with hkw
  have hsk : ∀ p ∈ kw, p.2 ≠ none := fun p hp e =>
    hs (e ▸ (List.of_mem_zip (a := p.1) (b := p.2) (mem_dict hp)).2)
  have hlk2 : ∀ p ∈ (keys w2.1).zip (wanted w2), kw.lookup p.1 = some p.2 := by
    intro p hp
    rw [hkw, lookup_dict, hz1, List.reverse_append, List.lookup_append,
      lookup_reverse_zip (keys_nodup _) (wanted_length h2) hp]
    rfl
  have hlk0 : ∀ p ∈ lf.names.zip vals, kw.lookup p.1 = some p.2 := by
    intro p hp
    have hk := hd _ (List.of_mem_zip (a := p.1) (b := p.2) hp).1
    rw [hkw, lookup_dict, hz1, List.reverse_append, List.lookup_append, lookup_none (h12 ▸ hk),
      List.reverse_append, List.lookup_append, lookup_none hk, lookup_reverse_zip hc.nodup hc.length hp]
    rfl
  set kw2 := kw.filter fun p => decide (p.1 ∉ keys w2.1) with hkw2
  have hlk : ∀ p ∈ lf.names.zip vals, kw2.lookup p.1 = some p.2 := by
    intro p hp
    have hk := hd _ (List.of_mem_zip (a := p.1) (b := p.2) hp).1
    rw [hkw2, lookup_filter, if_neg (h12 ▸ hk)]
    exact hlk0 p hp
  have hself : (kw2.filter fun p => decide (p.1 ∉ keys w1.1)) = kw2 := by
    rw [hkw2, List.filter_filter, h12]
    simp
  have hkeys : ∀ p ∈ kw2, p.1 ∈ lf.names := by
    intro p hp
    obtain ⟨hp, hk⟩ := List.mem_filter.1 hp
    have hk : p.1 ∉ keys w2.1 := by simpa using hk
    have := (List.of_mem_zip (a := p.1) (b := p.2) (mem_dict hp)).1
    simp only [List.mem_append] at this
    exact (this.resolve_right hk).resolve_right (h12 ▸ hk)
  obtain ⟨n, hn⟩ := List.exists_mem_of_ne_nil _ hne0
  obtain ⟨v, hv⟩ := exists_pair hc.length hn
  have hne : kw2 ≠ [] := lookup_ne_nil (hlk _ hv)
  have hsk2 : ∀ p ∈ kw2, p.2 ≠ none := fun p hp => hsk p (List.mem_of_mem_filter hp)
  have hleaf : reparam lf [] vals (kw2.filter fun p => decide (p.1 ∉ keys w1.1)) = .ok ([], vals) := by
    rw [hself, reparam, if_pos]
    · congr 2
      have : ∀ p ∈ lf.names.zip vals, (kw2.lookup p.1).join.or (lf.missing p.1 p.2) = p.2 := by
        intro p hp
        rw [hlk p hp]
        have : p.2 ≠ none := fun e => hc.given (e ▸ (List.of_mem_zip (a := p.1) (b := p.2) hp).2)
        obtain ⟨v, hv⟩ := Option.ne_none_iff_exists'.1 this
        rw [hv]; rfl
      rw [List.map_congr_left this]
      exact zip_snd hc.length
    · rw [List.all_eq_true]
      intro p hp
      simpa using hc.accepts _ (hkeys p hp)
  obtain ⟨L1, e1, k1, o1⟩ := reparam_rest
    (L := ⟨w1.1, wanted w1, lf.names ++ keys w1.1, vals ++ wanted w1, true⟩) (kw := kw2)
    (by rw [hself]; exact hne) hsk2 hleaf
  obtain ⟨L2, e2, k2, o2⟩ := reparam_rest
    (L := ⟨w2.1, wanted w2, lf.names ++ keys w1.1 ++ keys w2.1, vals ++ wanted w1 ++ wanted w2, true⟩)
    (kw := kw) hne hsk e1
  obtain ⟨L3, e3, k3, o3⟩ := wrap_complete (lf := lf) h3
    (Ls := layersOf lf vals [w2, w1]) (vals := vals) (by exact hs) e2
  refine ⟨L3, L2, L1, ?_, o3, ?_, ?_, k3, k2, k1⟩
  · rw [build, hb]
    exact e3
  · rw [o2]
    exact own_found h2 hlk2
  · rw [o1]
    have hnone : ∀ n ∈ keys w1.1, kw2.lookup n = none := by
      intro n hn
      rw [hkw2, lookup_filter, if_pos (h12 ▸ hn)]
    have : ((keys w1.1).map fun n => fill w1.1 n (kw2.lookup n).join) = (keys w1.1).map fun n => fill w1.1 n none :=
      List.map_congr_left fun n hn => by rw [hnone n hn]; rfl
    refine this.trans ?_
    cases w1.1 <;> simp [keys, fill]

/-- C145: `Truncated(Hurdle(Truncated(Uniform(a, b), l, u), psi), l', u')`: the values are read under the wrong names; the
inner Truncated takes psi as its lower bound and the Hurdle is left without psi, and no error is raised. -/
theorem nested_misread (a b l u psi l' u' : Val) :
    ∃ L3 L2 L1, build uniform [some a, some b] [(.truncated, [some l', some u']), (.hurdle, [some psi]),
        (.truncated, [some l, some u])] = .ok ([L3, L2, L1], [some a, some b]) ∧
      L3.own = [some l', some u'] ∧ L2.own = [none] ∧ L1.own = [some psi, some u] := by
  simp [build, Nest.wrap, reparam, keys, fill, dict, put, namesOf, paramsOf, uniform, List.lookup]

/-! ## The hypotheses are met -/

private theorem normal_complete (m s : EReal) : Complete normal [some (.num m), some (.num s)] :=
  ⟨by simp [normal], by simp [normal], by simp [normal], by simp⟩

private theorem truncatedNormal_complete (m s l u : EReal) :
    Complete truncatedNormal [some (.num m), some (.num s), some (.num l), some (.num u)] :=
  ⟨by simp [truncatedNormal], by simp [truncatedNormal], by simp [truncatedNormal], by simp⟩

/-- `Truncated(Hurdle(Truncated(Normal(0, 1), -1, None), 0.3), None, 2)` is what it says -/
example : ∃ Ls, build normal [some (.num 0), some (.num 1)] [(.truncated, [none, some (.num 2)]),
      (.hurdle, [some (.num ((0.3 : ℝ) : EReal))]), (.truncated, [some (.num (-1)), none])] =
        .ok (Ls, [some (.num 0), some (.num 1)]) ∧
    Ls.map Layer.own = [[some (.num ⊥), some (.num 2)], [some (.num ((0.3 : ℝ) : EReal))],
      [some (.num (-1)), some (.num ⊤)]] := by
  obtain ⟨Ls, h1, h2, -⟩ := nested_kept_partial (normal_complete 0 1)
    [(.truncated, [none, some (.num 2)]), (.hurdle, [some (.num ((0.3 : ℝ) : EReal))]),
      (.truncated, [some (.num (-1)), none])]
    (by
      intro w hw
      simp only [List.mem_cons, List.not_mem_nil, or_false] at hw
      rcases hw with rfl | rfl | rfl <;> exact ⟨by simp, by simp⟩)
    (by simp [NoClash, normal, ownNames])
  refine ⟨Ls, h1, ?_⟩
  have := congrArg (List.map Prod.snd) h2
  simpa [List.map_map, Function.comp_def, wanted] using this

/-- `Truncated(Truncated(Truncated(Normal(0, 1), -1, 1), -2, 2), -3, 3)`: the innermost bounds are gone -/
example : ∃ L3 L2 L1, build normal [some (.num 0), some (.num 1)] [(.truncated, [some (.num (-3)), some (.num 3)]),
      (.truncated, [some (.num (-2)), some (.num 2)]), (.truncated, [some (.num (-1)), some (.num 1)])] =
        .ok ([L3, L2, L1], [some (.num 0), some (.num 1)]) ∧ L1.own = [some (.num ⊥), some (.num ⊤)] := by
  obtain ⟨L3, L2, L1, h, -, -, h1, -⟩ := nested_inner_lost (normal_complete 0 1)
    (w1 := (.truncated, [some (.num (-1)), some (.num 1)])) (w2 := (.truncated, [some (.num (-2)), some (.num 2)]))
    (w3 := (.truncated, [some (.num (-3)), some (.num 3)])) ⟨by simp, by simp⟩ ⟨by simp, by simp⟩ ⟨by simp, by simp⟩ rfl
    (by simp [normal, ownNames]) (by simp [normal])
  exact ⟨L3, L2, L1, h, by simpa using h1⟩

/-- `Hurdle(Censored(TruncatedNormal(0, 1, -1, 1), -2, 2), 0.3)`: the bounds of the TruncatedNormal are gone -/
example : ∃ L2 L1, build truncatedNormal [some (.num 0), some (.num 1), some (.num (-1)), some (.num 1)]
      [(.hurdle, [some (.num ((0.3 : ℝ) : EReal))]), (.censored, [some (.num (-2)), some (.num 2)])] =
        .ok ([L2, L1], [some (.num 0), some (.num 1), some (.num ⊥), some (.num ⊤)]) := by
  obtain ⟨L2, L1, h, -, -⟩ := nested_leaf_lost (truncatedNormal_complete 0 1 (-1) 1)
    (w1 := (.censored, [some (.num (-2)), some (.num 2)])) (w2 := (.hurdle, [some (.num ((0.3 : ℝ) : EReal))]))
    ⟨by simp, by simp⟩ ⟨by simp, by simp⟩ (n := "mu") (by simp [truncatedNormal]) (by simp [ownNames])
  refine ⟨L2, L1, h.trans ?_⟩
  simp [truncatedNormal, ownNames]

/-- `Censored(Mixture([Normal(0, 1), Normal(2, 3)], [1, 1]), 0, 1)` raises -/
example : build (mixture [["mu", "sigma"], ["mu", "sigma"]]) [some (.num 0), some (.num 1), some (.num 2),
      some (.num 3), some (.array [1, 1])] [(.censored, [some (.num 0), some (.num 1)])] = .error .typeError :=
  nested_refused (by simp [mixture]) (by simp) (n := "mu") (by simp [mixture]) (by simp [mixture]) _ (by simp)

/-- `Hurdle(Truncated(Normal(0), 1, 5), 0.3)` is not complete -/
example : ∃ Ls, build normal [some (.num 0), none] [(.hurdle, [some (.num ((0.3 : ℝ) : EReal))]),
      (.truncated, [some (.num 1), some (.num 5)])] = .ok (Ls, [some (.num 0), none]) ∧ ∀ L ∈ Ls, L.frozen = false := by
  obtain ⟨Ls, h1, -, h2, -⟩ := nested_incomplete (lf := normal) (vals := [some (.num 0), none]) (by simp [normal]) (by simp)
    [(.hurdle, [some (.num ((0.3 : ℝ) : EReal))]), (.truncated, [some (.num 1), some (.num 5)])]
    (by
      intro w hw
      simp only [List.mem_cons, List.not_mem_nil, or_false] at hw
      rcases hw with rfl | rfl <;> exact ⟨by simp, by simp⟩)
    (by simp [NoClash, normal, ownNames])
  exact ⟨Ls, h1, h2⟩

end Verif.Props
