/-
C89: what ParseArff returns for an ARFF file.
-/
import Verif.Proofs.Arff
import Verif.Props.Input

set_option linter.unusedSectionVars false
set_option linter.unusedSimpArgs false

namespace Gospn

open Spec

/-- The values of attribute number `j`. -/
def columnOf (rows : List (List Str)) (j : Nat) : List Str := rows.filterMap fun r => r[j]?

theorem arffLine_skip {st : ArffState} (hd : st.data = false) {l : Str} (h : SkipLine l) : arffLine st l = some st := by
  unfold arffLine
  by_cases hcm : l.head? = some '%'
  · rw [if_pos hcm]
  · rw [if_neg hcm, if_pos hd]
    have : ∀ w : Str, w.head? = some '@' → w.isPrefixOf (lowerStr l) = false := by
      intro w hw
      cases w with
      | nil => simp at hw
      | cons a w =>
        simp at hw; subst hw
        cases l with
        | nil => rfl
        | cons c l =>
          have hc : c ≠ '@' := by simpa using h.1
          have : ('@' == c.toLower) = false := by
            rw [beq_eq_false_iff_ne]
            intro he
            apply hc
            unfold Char.toLower at he
            split at he
            · rename_i h1
              exfalso
              have hv := congrArg (fun c : Char => c.val.toNat) he
              simp only at hv
              have h2 := h1.1
              have h3 := h1.2
              have e1 : (65 : Nat) ≤ c.val.toNat := UInt32.le_iff_toNat_le.1 h2
              have e2 : c.val.toNat ≤ 90 := UInt32.le_iff_toNat_le.1 h3
              rw [UInt32.toNat_add] at hv
              have e3 : ('@'.val.toNat) = 64 := rfl
              have e4 : (('a'.val - 'A'.val : UInt32)).toNat = 32 := rfl
              rw [e3, e4] at hv
              omega
            · exact he.symm
          simp [lowerStr, List.isPrefixOf, this]
    rw [if_neg (by rw [this _ rfl]; decide), if_neg (by rw [this _ rfl]; decide), if_neg (by rw [this _ rfl]; decide)]

theorem anyCase_prefix {w : String} {kw : Str} (h : AnyCase w kw) (s : Str) : w.toList.isPrefixOf (lowerStr (kw ++ s)) = true := by
  have : lowerStr (kw ++ s) = w.toList ++ lowerStr s := by
    have := anyCase_mem h
    unfold lowerStr at this ⊢
    rw [List.map_append, this]
  rw [this]
  exact List.isPrefixOf_iff_prefix.2 (List.prefix_append _ _)

/-- The first character of a keyword is not that of a comment. -/
theorem anyCase_head {w : String} (hw : w.toList.head? = some '@') {kw : Str} (h : AnyCase w kw) (s : Str) : (kw ++ s).head? ≠ some '%' := by
  have := anyCase_mem h
  cases kw with
  | nil => rw [← this] at hw; simp [lowerStr] at hw
  | cons c kw =>
    intro hc
    simp at hc; subst hc
    rw [← this] at hw
    simp [lowerStr] at hw

theorem arffLine_attr {st : ArffState} (hd : st.data = false) {d : Str × ArffType} {l : Str} (h : AttrLine d l) : arffLine st l = some { st with attrs := st.attrs ++ [initAttr d] } := by
  have ha := attrLine_spec h
  obtain ⟨hw, kw, g, g', t, hk, hg, hg', ht, rfl⟩ := h
  unfold arffLine
  have h1 : ['@', 'a', 't', 't', 'r', 'i', 'b', 'u', 't', 'e'].isPrefixOf (lowerStr (kw ++ (g ++ (d.1 ++ (g' ++ t))))) = true := anyCase_prefix hk _
  have h2 : ['@', 'r', 'e', 'l', 'a', 't', 'i', 'o', 'n'].isPrefixOf (lowerStr (kw ++ (g ++ (d.1 ++ (g' ++ t))))) = false := by
    obtain ⟨u, hu⟩ := List.isPrefixOf_iff_prefix.1 h1
    rw [← hu]; rfl
  rw [if_neg (anyCase_head (by decide) hk _), if_pos hd, if_neg (by rw [h2]; decide), if_pos h1, ha]
  rfl

theorem arffLine_relation {st : ArffState} (hd : st.data = false) {n : Str} {l : Str} (h : RelationLine n l) : arffLine st l = some { st with name := n } := by
  obtain ⟨hw, kw, g, t, hk, hg, ht, rfl⟩ := h
  have h1 : ['@', 'r', 'e', 'l', 'a', 't', 'i', 'o', 'n'].isPrefixOf (lowerStr (kw ++ (g ++ (n ++ t)))) = true := anyCase_prefix hk _
  have hn : ∀ c ∈ n, isBlank c = false := fun c hc => not_isBlank (hw.2 c hc)
  have hf : (wordFields (kw ++ (g ++ (n ++ t))))[1]? = some n := by
    rw [gap_fields hg (anyCase_ne_nil (by decide) hk) (anyCase_not_blank (by decide) hk)]
    cases t with
    | nil => rw [List.append_nil, wordFields, fieldsFunc_self hw.1 hn]; rfl
    | cons c t => rw [wordFields, fieldsFunc_word hw.1 hn (isSpace_isBlank (ht c (by simp)))]; rfl
  unfold arffLine
  rw [if_neg (anyCase_head (by decide) hk _), if_pos hd, if_pos h1, hf]
  rfl

theorem arffLine_data {st : ArffState} (hd : st.data = false) {kw more : Str} (hk : AnyCase "@data" kw) : arffLine st (kw ++ more) = some { st with data := true } := by
  have h1 : ['@', 'd', 'a', 't', 'a'].isPrefixOf (lowerStr (kw ++ more)) = true := anyCase_prefix hk _
  obtain ⟨u, hu⟩ := List.isPrefixOf_iff_prefix.1 h1
  unfold arffLine
  rw [if_neg (anyCase_head (by decide) hk _), if_pos hd, if_neg (by rw [← hu]; simp [List.isPrefixOf]), if_neg (by rw [← hu]; simp [List.isPrefixOf]), if_pos h1]

theorem arffHeader_spec {ds : List (Str × ArffType)} {ls : List Str} (h : ArffHeader ds ls) : ∀ st : ArffState, st.data = false →
    ls.foldlM arffLine st = some { st with attrs := st.attrs ++ ds.map initAttr } := by
  induction h with
  | nil => intro st _; simp
  | skip l hl _ ih => intro st hd; rw [List.foldlM_cons, arffLine_skip hd hl]; exact ih st hd
  | attr d l hl _ ih =>
    intro st hd
    rw [List.foldlM_cons, arffLine_attr hd hl]
    show List.foldlM arffLine _ _ = _
    rw [ih { st with attrs := st.attrs ++ [initAttr d] } hd]
    simp

theorem attrLine_chars {d : Str × ArffType} {l : Str} (h : AttrLine d l) : '\n' ∉ l ∧ '\r' ∉ l := by
  obtain ⟨hw, kw, g, g', t, hk, hg, hg', ht, rfl⟩ := h
  have h1 : ∀ c ∈ kw, isBlank c = false := anyCase_not_blank (by decide) hk
  have hG : ∀ {g}, IsGap g → '\n' ∉ g ∧ '\r' ∉ g := by
    intro g hg
    constructor <;> intro hc <;> rcases hg.2 _ hc with h | h <;> exact absurd h (by decide)
  have hK : '\n' ∉ kw ∧ '\r' ∉ kw := by constructor <;> intro hc <;> exact absurd (h1 _ hc) (by decide)
  have hN : '\n' ∉ d.1 ∧ '\r' ∉ d.1 := ⟨fun hc => (hw.2 _ hc).2.1 rfl, fun hc => (hw.2 _ hc).2.2.1 rfl⟩
  have hT : '\n' ∉ t ∧ '\r' ∉ t := ⟨fun hc => (ht.1 _ hc).1 rfl, fun hc => (ht.1 _ hc).2.1 rfl⟩
  simp [hK, hG hg, hG hg', hN, hT]

theorem relationLine_chars {n l : Str} (h : RelationLine n l) : '\n' ∉ l ∧ '\r' ∉ l := by
  obtain ⟨hw, kw, g, t, hk, hg, ht, rfl⟩ := h
  have h1 : ∀ c ∈ kw, isBlank c = false := anyCase_not_blank (by decide) hk
  have hG : ∀ {g : Str}, (∀ c ∈ g, IsSpace c) → '\n' ∉ g ∧ '\r' ∉ g := by
    intro g hg
    constructor <;> intro hc <;> rcases hg _ hc with h | h <;> exact absurd h (by decide)
  have hK : '\n' ∉ kw ∧ '\r' ∉ kw := by constructor <;> intro hc <;> exact absurd (h1 _ hc) (by decide)
  have hN : '\n' ∉ n ∧ '\r' ∉ n := ⟨fun hc => (hw.2 _ hc).2.1 rfl, fun hc => (hw.2 _ hc).2.2.1 rfl⟩
  simp [hK, hG hg.2, hG ht, hN]

theorem arffHeader_chars {ds : List (Str × ArffType)} {ls : List Str} (h : ArffHeader ds ls) : ∀ l ∈ ls, '\n' ∉ l ∧ '\r' ∉ l := by
  induction h with
  | nil => simp
  | skip l hl _ ih => intro m hm; rcases List.mem_cons.1 hm with rfl | hm; exacts [hl.2, ih m hm]
  | attr d l hl _ ih => intro m hm; rcases List.mem_cons.1 hm with rfl | hm; exacts [attrLine_chars hl, ih m hm]

theorem arffRows_chars {rs : List (List Str)} {ls : List Str} (h : ArffRows rs ls) : ∀ l ∈ ls, '\n' ∉ l ∧ '\r' ∉ l := by
  induction h with
  | nil => simp
  | comment l hl _ ih => intro m hm; rcases List.mem_cons.1 hm with rfl | hm; exacts [by simp [hl], ih m hm]
  | row r l hl _ _ ih => intro m hm; rcases List.mem_cons.1 hm with rfl | hm; exacts [tokenRow_chars hl, ih m hm]

/-- The lines of data, if for each attribute the column can be read. -/
theorem arffRows_spec {rs : List (List Str)} {ls : List Str} (h : ArffRows rs ls) : ∀ (st : ArffState) (fin : List ArffAttr) (codes : List (List Int)), st.data = true →
    (∀ r ∈ rs, r.length = st.attrs.length) → fin.length = st.attrs.length → codes.length = st.attrs.length →
    (∀ (j : Nat) a a' cs, st.attrs[j]? = some a → fin[j]? = some a' → codes[j]? = some cs → attrRun a (columnOf rs j) = some (a', cs)) →
    ls.foldlM arffLine st = some { st with attrs := fin, vals := st.vals ++ (List.range rs.length).map fun i => lineInstance (codes.map fun cs => cs.getD i 0) } := by
  induction h with
  | nil =>
    intro st fin codes _ _ hf hc H
    have : fin = st.attrs := by
      refine List.ext_getElem? fun j => ?_
      by_cases hj : j < st.attrs.length
      · have := H j _ _ _ (List.getElem?_eq_getElem hj) (List.getElem?_eq_getElem (by omega)) (List.getElem?_eq_getElem (by omega))
        simp [columnOf, attrRun] at this
        rw [List.getElem?_eq_getElem (by omega), List.getElem?_eq_getElem hj, this.1]
      · rw [List.getElem?_eq_none (by omega), List.getElem?_eq_none (by omega)]
    subst this
    simp
  | comment l hl _ ih =>
    intro st fin codes hd hr hf hc H
    rw [List.foldlM_cons]
    have : arffLine st ('%' :: l) = some st := by simp [arffLine]
    rw [this]
    exact ih st fin codes hd hr hf hc H
  | row r l hl hp hrs ih =>
    rename_i rs ls
    intro st fin codes hd hr hf hc H
    have hlen := hr r (by simp)
    -- the first value of each column
    have hstep : ∀ j : Fin st.attrs.length, ∃ q : ArffAttr × Int, arffCell (st.attrs[j]) (r[j.1]'(by omega)) = some q ∧
        ∃ tl, attrRun q.1 (columnOf rs j) = some (fin[j.1]'(by omega), tl) ∧ codes[j.1]'(by omega) = q.2 :: tl := by
      intro j
      have hj := j.2
      have := H j _ _ _ (List.getElem?_eq_getElem hj) (List.getElem?_eq_getElem (by omega)) (List.getElem?_eq_getElem (by omega))
      have hcol : columnOf (r :: rs) j = (r[j.1]'(by omega)) :: columnOf rs j := by
        simp [columnOf, List.filterMap_cons, List.getElem?_eq_getElem (show j.1 < r.length by omega)]
      rw [hcol, attrRun] at this
      cases hq : arffCell (st.attrs[j]) (r[j.1]'(by omega)) with
      | none => erw [hq] at this; simp at this
      | some q =>
        erw [hq] at this
        rw [Option.bind_some, Option.map_eq_some_iff] at this
        obtain ⟨w, hw, he⟩ := this
        refine ⟨q, rfl, w.2, ?_, ?_⟩
        · rw [hw]; exact congrArg some (Prod.ext (by simpa using congrArg Prod.fst he) rfl)
        · exact (congrArg Prod.snd he).symm
    choose q hq tl htl hcodes using hstep
    rw [List.foldlM_cons]
    have hrow : arffRow st.attrs l = some (List.ofFn fun j => (q j).1, lineInstance (List.ofFn fun j => (q j).2)) := by
      refine arffRow_spec hl hlen (by simp [hlen]) (by simp [hlen]) ?_
      intro j a t a' v h1 h2 h3 h4
      have hj : j < st.attrs.length := (List.getElem?_eq_some_iff.1 h1).1
      have := hq ⟨j, hj⟩
      rw [List.getElem?_eq_getElem hj] at h1
      rw [List.getElem?_eq_getElem (by omega)] at h2
      rw [List.getElem?_eq_getElem (by simpa using hj)] at h3 h4
      rw [List.getElem_ofFn] at h3 h4
      rw [← Option.some.inj h1, ← Option.some.inj h2, ← Option.some.inj h3, ← Option.some.inj h4]
      exact this
    have hline : arffLine st l = some { st with attrs := List.ofFn fun j => (q j).1, vals := st.vals ++ [lineInstance (List.ofFn fun j => (q j).2)] } := by
      unfold arffLine
      rw [if_neg hp, if_neg (by simp [hd]), hrow]
      rfl
    rw [hline]
    show List.foldlM arffLine _ _ = _
    rw [ih { st with attrs := List.ofFn fun j => (q j).1, vals := st.vals ++ [lineInstance (List.ofFn fun j => (q j).2)] } fin (List.ofFn tl) hd ?_ ?_ ?_ ?_]
    · have e1 : (List.ofFn fun j => (q j).2) = codes.map fun cs => cs.getD 0 0 := by
        refine List.ext_getElem (by simp [hc]) fun j h1 h2 => ?_
        rw [List.getElem_ofFn, List.getElem_map]
        have hj : j < st.attrs.length := by simpa using h1
        have := hcodes ⟨j, hj⟩
        simp only at this
        rw [this]; rfl
      have e2 : ∀ i : Nat, ((List.ofFn tl).map fun cs => cs.getD i 0) = codes.map fun cs => cs.getD (i + 1) 0 := by
        intro i
        refine List.ext_getElem (by simp [hc]) fun j h1 h2 => ?_
        rw [List.getElem_map, List.getElem_ofFn, List.getElem_map]
        have hj : j < st.attrs.length := by simpa using h1
        have := hcodes ⟨j, hj⟩
        simp only at this
        rw [this]; simp
      rw [List.length_cons, List.range_succ_eq_map, List.map_cons, List.map_map, e1]
      simp only [List.append_assoc, List.cons_append, List.nil_append, Function.comp_def, e2, Nat.succ_eq_add_one]
    · intro r' hr'
      simp [hr r' (by simp [hr'])]
    · simp [hf]
    · simp
    · intro j a a' cs h1 h2 h3
      have hj : j < st.attrs.length := by simpa using (List.getElem?_eq_some_iff.1 h1).1
      rw [List.getElem?_eq_getElem (by simpa using hj), List.getElem_ofFn] at h1
      rw [List.getElem?_eq_getElem (by omega)] at h2
      rw [List.getElem?_eq_getElem (by simpa using hj), List.getElem_ofFn] at h3
      have := htl ⟨j, hj⟩
      rw [← Option.some.inj h1, ← Option.some.inj h2, ← Option.some.inj h3]
      exact this

/-- Reading a file comes down to reading its columns. -/
theorem parseArff_columns {name : Str} {decls : List (Str × ArffType)} {rows : List (List Str)} {text : Str} (h : ArffFile name decls rows text) (hlen : ∀ r ∈ rows, r.length = decls.length)
    (fin : List ArffAttr) (codes : List (List Int)) (hf : fin.length = decls.length) (hc : codes.length = decls.length)
    (H : ∀ (j : Nat) d a' cs, decls[j]? = some d → fin[j]? = some a' → codes[j]? = some cs → attrRun (initAttr d) (columnOf rows j) = some (a', cs)) :
    parseArff text = some ⟨name, fin, true, (List.range rows.length).map fun i => lineInstance (codes.map fun cs => cs.getD i 0)⟩ := by
  obtain ⟨pre, rel, head, kw, more, data, hpre, hrel, hhead, hkw, hmore, hdata, hshort, rfl⟩ := h.ex
  unfold parseArff
  have hkc : '\n' ∉ kw ∧ '\r' ∉ kw := by
    have := anyCase_not_blank (w := "@data") (by decide) hkw
    constructor <;> intro hc <;> exact absurd (this _ hc) (by decide)
  rw [scanLines_unlines, takeWhile_all' fun l hl => by simpa using hshort l hl]
  · rw [List.append_assoc, List.foldlM_append]
    have h1 : ∀ st : ArffState, st.data = false → pre.foldlM arffLine st = some st := by
      clear hshort h
      intro st hd
      induction pre with
      | nil => rfl
      | cons l pre ih =>
        rw [List.foldlM_cons, arffLine_skip hd (hpre l (by simp))]
        exact ih fun l hl => hpre l (by simp [hl])
    rw [h1 _ rfl]
    show List.foldlM arffLine _ (rel :: head ++ (kw ++ more) :: data) = _
    rw [List.cons_append, List.foldlM_cons, arffLine_relation rfl hrel]
    show List.foldlM arffLine _ (head ++ (kw ++ more) :: data) = _
    rw [List.foldlM_append, arffHeader_spec hhead _ rfl]
    show List.foldlM arffLine _ ((kw ++ more) :: data) = _
    rw [List.foldlM_cons, arffLine_data rfl hkw]
    show List.foldlM arffLine _ data = _
    rw [arffRows_spec hdata _ fin codes rfl (by simpa using hlen) (by simpa using hf) (by simpa using hc) ?_]
    · rfl
    · intro j a a' cs h1 h2 h3
      simp only [List.nil_append, List.getElem?_map, Option.map_eq_some_iff] at h1
      obtain ⟨d, hd, rfl⟩ := h1
      exact H j d a' cs hd h2 h3
  · intro l hl
    simp only [List.mem_append, List.mem_cons] at hl
    rcases hl with (hl | rfl | hl) | rfl | hl
    · exact (hpre l hl).2
    · exact relationLine_chars hrel
    · exact arffHeader_chars hhead l hl
    · simp [hkc, hmore]
    · exact arffRows_chars hdata l hl

/-- What a column yields, whatever the values of nominal attributes are. -/
theorem attrRun_init (d : Str × ArffType) (col : List Str) (hg : d.2 = .numeric → GoodColumn .numeric col) :
    ∃ a' cs, attrRun (initAttr d) col = some (a', cs) ∧ a'.name = d.1 ∧ cs.length = col.length ∧
      match d.2 with
      | .nominal ls => ∃ us : List Str, us.Nodup ∧ (∀ t, t ∈ us ↔ t ∈ col ∧ t ∉ ls) ∧ a'.cats = ls.length ∧ cs = col.map (clsCode ls us) ∧ a'.dict = clsDict ls us
      | ty => ColumnCode ty col cs a'.cats a'.dict := by
  rcases d with ⟨n, ty⟩
  cases ty with
  | numeric =>
    obtain ⟨vs, rfl, hr⟩ := hg rfl
    obtain ⟨c, h1, h2, h3, h4⟩ := attrRun_numeric n vs hr 0 (le_refl _)
    refine ⟨_, _, h4, rfl, by simp, rfl, h2, ?_, fun _ => rfl⟩
    rcases h3 with h3 | h3
    · exact Or.inl h3
    · exact Or.inr ⟨h1, h3⟩
  | string =>
    obtain ⟨names, -, h1, h2, h3⟩ := attrRun_str n col [] (by simp)
    have h0 : initAttr (n, .string) = ⟨.str, n, (([] : List Str).length : Int), posDict [], (([] : List Str).length : Int)⟩ := by
      simp only [initAttr, List.length_nil, Nat.cast_zero]
      congr 1
    rw [h0]
    exact ⟨_, _, h3, rfl, by simp, names, h1, by simpa using h2, rfl, rfl, fun _ => rfl⟩
  | nominal ls =>
    obtain ⟨us, -, h1, h2, h3⟩ := attrRun_cls n ls.length ls col [] (by simp) (by simp)
    have h0 : initAttr (n, .nominal ls) = ⟨.cls, n, (ls.length : Int), clsDict ls [], (([] : List Str).length : Int)⟩ := by
      simp only [initAttr, List.length_nil, Nat.cast_zero]
      congr 1
    rw [h0]
    exact ⟨_, _, h3, rfl, by simp, us, h1, by simpa using h2, rfl, rfl, rfl⟩

theorem columnOf_length {rows : List (List Str)} {n j : Nat} (hlen : ∀ r ∈ rows, r.length = n) (hj : j < n) : (columnOf rows j).length = rows.length := by
  unfold columnOf
  induction rows with
  | nil => rfl
  | cons r rows ih =>
    rw [List.filterMap_cons, List.getElem?_eq_getElem (by rw [hlen r (by simp)]; exact hj)]
    simp [ih fun r hr => hlen r (by simp [hr])]

/-- The file, column by column, whatever the values of nominal attributes are. -/
theorem parseArff_result {name : Str} {decls : List (Str × ArffType)} {rows : List (List Str)} {text : Str} (h : ArffFile name decls rows text) (hlen : ∀ r ∈ rows, r.length = decls.length)
    (hg : ∀ (j : Nat) d, decls[j]? = some d → d.2 = .numeric → GoodColumn .numeric (columnOf rows j)) :
    ∃ st, parseArff text = some st ∧ st.name = name ∧ st.attrs.map ArffAttr.name = decls.map Prod.fst ∧ st.vals.length = rows.length ∧
      (∀ m ∈ st.vals, ∀ k : Int, (∃ v, m k = some v) ↔ 0 ≤ k ∧ k < decls.length) ∧
      ∀ (j : Nat) d, decls[j]? = some d → ∃ a cs, st.attrs[j]? = some a ∧ cs.length = rows.length ∧ (∀ (i : Nat) (m : VarSet), st.vals[i]? = some m → m j = cs[i]?) ∧
        match d.2 with
        | .nominal ls => ∃ us : List Str, us.Nodup ∧ (∀ t, t ∈ us ↔ t ∈ columnOf rows j ∧ t ∉ ls) ∧ a.cats = ls.length ∧ cs = (columnOf rows j).map (clsCode ls us) ∧ a.dict = clsDict ls us
        | ty => ColumnCode ty (columnOf rows j) cs a.cats a.dict := by
  have hcol : ∀ j : Fin decls.length, ∃ q : ArffAttr × List Int, attrRun (initAttr decls[j]) (columnOf rows j) = some q ∧ q.1.name = decls[j].1 ∧ q.2.length = rows.length ∧
      match decls[j].2 with
      | .nominal ls => ∃ us : List Str, us.Nodup ∧ (∀ t, t ∈ us ↔ t ∈ columnOf rows j ∧ t ∉ ls) ∧ q.1.cats = ls.length ∧ q.2 = (columnOf rows j).map (clsCode ls us) ∧ q.1.dict = clsDict ls us
      | ty => ColumnCode ty (columnOf rows j) q.2 q.1.cats q.1.dict := by
    intro j
    obtain ⟨a', cs, h1, h2, h3, h4⟩ := attrRun_init decls[j] (columnOf rows j) (hg j _ (List.getElem?_eq_getElem j.2))
    exact ⟨(a', cs), h1, h2, by rw [h3, columnOf_length hlen j.2], h4⟩
  choose q hq hn hl hres using hcol
  refine ⟨_, parseArff_columns h hlen (List.ofFn fun j => (q j).1) (List.ofFn fun j => (q j).2) (by simp) (by simp) ?_, rfl, ?_, by simp, ?_, ?_⟩
  · intro j d a' cs h1 h2 h3
    have hj : j < decls.length := (List.getElem?_eq_some_iff.1 h1).1
    rw [List.getElem?_eq_getElem hj] at h1
    rw [List.getElem?_eq_getElem (by simpa using hj), List.getElem_ofFn] at h2 h3
    rw [← Option.some.inj h1, ← Option.some.inj h2, ← Option.some.inj h3]
    exact hq ⟨j, hj⟩
  · refine List.ext_getElem (by simp) fun j h1 h2 => ?_
    rw [List.getElem_map, List.getElem_map, List.getElem_ofFn]
    exact hn _
  · intro m hm k
    simp only [List.mem_map, List.mem_range] at hm
    obtain ⟨i, hi, rfl⟩ := hm
    unfold lineInstance
    by_cases hk : 0 ≤ k
    · rw [if_pos hk]
      constructor
      · rintro ⟨v, hv⟩
        have := (List.getElem?_eq_some_iff.1 hv).1
        simp at this
        omega
      · rintro ⟨_, hlt⟩
        exact ⟨_, List.getElem?_eq_getElem (by simp; omega)⟩
    · rw [if_neg hk]; simp [hk]
  · intro j d hd
    have hj : j < decls.length := (List.getElem?_eq_some_iff.1 hd).1
    rw [List.getElem?_eq_getElem hj] at hd
    have hd' := Option.some.inj hd
    subst hd'
    refine ⟨(q ⟨j, hj⟩).1, (q ⟨j, hj⟩).2, ?_, hl ⟨j, hj⟩, ?_, hres ⟨j, hj⟩⟩
    · show (List.ofFn fun j => (q j).1)[j]? = _
      rw [List.getElem?_eq_getElem (by simpa using hj), List.getElem_ofFn]
    · intro i m hm
      replace hm : ((List.range rows.length).map fun i => lineInstance ((List.ofFn fun j => (q j).2).map fun cs => cs.getD i 0))[i]? = some m := hm
      rw [List.getElem?_map, Option.map_eq_some_iff] at hm
      obtain ⟨i', hi', rfl⟩ := hm
      obtain ⟨hi1, hi2⟩ := List.getElem?_eq_some_iff.1 hi'
      simp at hi2 hi1
      subst hi2
      unfold lineInstance
      rw [if_pos (by omega), Int.toNat_natCast, List.getElem?_map, List.getElem?_eq_getElem (by simpa using hj), List.getElem_ofFn, Option.map_some]
      have := hl ⟨j, hj⟩
      rw [List.getElem?_eq_getElem (by omega)]
      simp [List.getD_eq_getElem?_getD, List.getElem?_eq_getElem (show i < (q ⟨j, hj⟩).2.length by omega)]

/-- **C89.** `ParseArff` reads a well-formed file: the name of the relation, an attribute for each definition in order and with its name, and an instance for each line of data that gives
a value to each attribute and to nothing else. The values of numeric attributes are the numbers written and the categories reach just beyond the largest; those of string attributes are
positions in a list of the different strings, as many as there are categories; those of nominal attributes the positions in the definition. The map of labels gives these positions. For
nominal attributes this needs all values to be declared: see the theorems below. -/
theorem C89_parseArff_partial {name : Str} {decls : List (Str × ArffType)} {rows : List (List Str)} {text : Str} (h : ArffFile name decls rows text) (hlen : ∀ r ∈ rows, r.length = decls.length)
    (hg : ∀ (j : Nat) d, decls[j]? = some d → GoodColumn d.2 (columnOf rows j)) :
    ∃ st, parseArff text = some st ∧ st.name = name ∧ st.attrs.map ArffAttr.name = decls.map Prod.fst ∧ st.vals.length = rows.length ∧
      (∀ m ∈ st.vals, ∀ k : Int, (∃ v, m k = some v) ↔ 0 ≤ k ∧ k < decls.length) ∧
      ∀ (j : Nat) d, decls[j]? = some d → ∃ a cs, st.attrs[j]? = some a ∧ cs.length = rows.length ∧ (∀ (i : Nat) (m : VarSet), st.vals[i]? = some m → m j = cs[i]?) ∧
        ColumnCode d.2 (columnOf rows j) cs a.cats a.dict := by
  obtain ⟨st, h1, h2, h3, h4, h5, h6⟩ := parseArff_result h hlen fun j d hd hn => by have := hg j d hd; rwa [hn] at this
  refine ⟨st, h1, h2, h3, h4, h5, fun j d hd => ?_⟩
  obtain ⟨a, cs, ha, hl, hv, hc⟩ := h6 j d hd
  refine ⟨a, cs, ha, hl, hv, ?_⟩
  have hgood := hg j d hd
  rcases d with ⟨n, ty⟩
  cases ty with
  | numeric => exact hc
  | string => exact hc
  | nominal ls =>
    obtain ⟨us, hu1, hu2, hu3, hu4, hu5⟩ := hc
    have hnil : us = [] := by
      rw [List.eq_nil_iff_forall_not_mem]
      intro t ht
      have := (hu2 t).1 ht
      exact this.2 (hgood t this.1)
    subst hnil
    refine ⟨hu3, ?_, fun t => ?_⟩
    · rw [hu4]
      refine List.map_congr_left fun t ht => ?_
      rw [clsCode, if_pos (hgood t ht)]
    · rw [hu5, clsDict]
      simp [posDict]

/-- The values of a nominal attribute that are not declared are numbered from zero again, and not counted as categories. -/
theorem C89_undeclared {name : Str} {decls : List (Str × ArffType)} {rows : List (List Str)} {text : Str} (h : ArffFile name decls rows text) (hlen : ∀ r ∈ rows, r.length = decls.length)
    (hg : ∀ (j : Nat) d, decls[j]? = some d → d.2 = .numeric → GoodColumn .numeric (columnOf rows j)) {j : Nat} {n : Str} {ls : List Str} (hj : decls[j]? = some (n, .nominal ls)) :
    ∃ st a, parseArff text = some st ∧ st.attrs[j]? = some a ∧ a.cats = ls.length ∧ ∃ us : List Str, us.Nodup ∧ (∀ t, t ∈ us ↔ t ∈ columnOf rows j ∧ t ∉ ls) ∧
      ∀ (i : Nat) (m : VarSet) t, st.vals[i]? = some m → (columnOf rows j)[i]? = some t → m j = some (if t ∈ ls then (ls.idxOf t : Int) else (us.idxOf t : Int)) := by
  obtain ⟨st, h1, -, -, -, -, h6⟩ := parseArff_result h hlen hg
  obtain ⟨a, cs, ha, hl, hv, us, hu1, hu2, hu3, hu4, hu5⟩ := h6 j _ hj
  refine ⟨st, a, h1, ha, hu3, us, hu1, hu2, fun i m t hm ht => ?_⟩
  rw [hv i m hm, hu4, List.getElem?_map, ht]
  rfl

/-- So, if any value is not declared, one such value gets the code of the first label: two different values cannot be told apart. -/
theorem C89_collision {name : Str} {decls : List (Str × ArffType)} {rows : List (List Str)} {text : Str} (h : ArffFile name decls rows text) (hlen : ∀ r ∈ rows, r.length = decls.length)
    (hg : ∀ (j : Nat) d, decls[j]? = some d → d.2 = .numeric → GoodColumn .numeric (columnOf rows j)) {j : Nat} {n l : Str} {ls : List Str}
    (hj : decls[j]? = some (n, .nominal (l :: ls))) (hl : l ∈ columnOf rows j) (hu : ∃ t ∈ columnOf rows j, t ∉ l :: ls) :
    ∃ (st : ArffState) (i i' : Nat) (t : Str), parseArff text = some st ∧ (columnOf rows j)[i]? = some l ∧ (columnOf rows j)[i']? = some t ∧ t ≠ l ∧
      (∀ m : VarSet, st.vals[i]? = some m → m j = some 0) ∧ (∀ m : VarSet, st.vals[i']? = some m → m j = some 0) := by
  obtain ⟨st, a, h1, -, -, us, hu1, hu2, hv⟩ := C89_undeclared h hlen hg hj
  obtain ⟨t, ht, htl⟩ := hu
  have : t ∈ us := (hu2 t).2 ⟨ht, htl⟩
  cases us with
  | nil => simp at this
  | cons u us =>
    have hu' := (hu2 u).1 (by simp)
    obtain ⟨i, hi⟩ := List.mem_iff_getElem?.1 hl
    obtain ⟨i', hi'⟩ := List.mem_iff_getElem?.1 hu'.1
    refine ⟨st, i, i', u, h1, hi, hi', fun he => hu'.2 (by simp [he]), fun m hm => ?_, fun m hm => ?_⟩
    · rw [hv i m l hm hi]; simp
    · rw [hv i' m u hm hi', if_neg hu'.2]; simp

/-- An empty line at the end of the file is an instance without any values. -/
theorem C89_blank_line {name : Str} {decls : List (Str × ArffType)} {rows : List (List Str)} {text : Str} (h : ArffFile name decls rows text) {st : ArffState} (hst : parseArff text = some st)
    (hd : st.data = true) : parseArff (text ++ ['\n']) = some { st with vals := st.vals ++ [fun _ => none] } := by
  obtain ⟨pre, rel, head, kw, more, data, hpre, hrel, hhead, hkw, hmore, hdata, hshort, rfl⟩ := h.ex
  set lines := pre ++ rel :: head ++ (kw ++ more) :: data with hlines
  have hkc : '\n' ∉ kw ∧ '\r' ∉ kw := by
    have := anyCase_not_blank (w := "@data") (by decide) hkw
    constructor <;> intro hc <;> exact absurd (this _ hc) (by decide)
  have hchars : ∀ l ∈ lines, '\n' ∉ l ∧ '\r' ∉ l := by
    intro l hl
    simp only [hlines, List.mem_append, List.mem_cons] at hl
    rcases hl with (hl | rfl | hl) | rfl | hl
    · exact (hpre l hl).2
    · exact relationLine_chars hrel
    · exact arffHeader_chars hhead l hl
    · simp [hkc, hmore]
    · exact arffRows_chars hdata l hl
  have he : unlines lines ++ ['\n'] = unlines (lines ++ [[]]) := by simp [unlines]
  unfold parseArff at hst ⊢
  rw [scanLines_unlines hchars, takeWhile_all' fun l hl => by simpa using hshort l hl] at hst
  rw [he, scanLines_unlines, takeWhile_all', List.foldlM_append, hst]
  · show List.foldlM arffLine st [[]] = _
    rw [List.foldlM_cons]
    have : arffLine st [] = some { st with vals := st.vals ++ [fun _ => none] } := by
      unfold arffLine
      rw [if_neg (by simp), if_neg (by simp [hd])]
      rfl
    rw [this]; rfl
  · intro l hl
    rcases List.mem_append.1 hl with hl | hl
    · simpa using hshort l hl
    · simp at hl; subst hl; simp
  · intro l hl
    rcases List.mem_append.1 hl with hl | hl
    · exact hchars l hl
    · simp at hl; subst hl; simp

/-- A file: a comment, a relation, three attributes, two instances. `{x, y}` has a blank in it. -/
theorem arff_example (v : Str) (hv : IsToken v) (hl : v.length < 100) : ArffFile "w".toList [("a".toList, .numeric), ("b".toList, .nominal ["x".toList, "y".toList]), ("s".toList, .string)]
    [["3".toList, "x".toList, "hi".toList], ["-1".toList, v, "ho".toList]]
    ("% hello\n@RELATION w\n@ATTRIBUTE a NUMERIC\n\n@attribute b {x, y}\n@attribute s String\n@data\n3,x,hi\n%\n-1, ".toList ++ (v ++ " ho\n".toList)) := by
  have hg : IsGap " ".toList := ⟨by decide, by intro c hc; simp at hc; exact Or.inl hc⟩
  have w : ∀ s : Str, s ∈ ["w".toList, "a".toList, "b".toList, "s".toList] → IsWord s := by
    intro s hs
    simp only [List.mem_cons, List.not_mem_nil, or_false] at hs
    rcases hs with rfl | rfl | rfl | rfl <;> exact ⟨by decide, by simp [IsSpace]⟩
  have tk : ∀ s : Str, s ∈ ["3".toList, "x".toList, "hi".toList, "-1".toList, "ho".toList] → IsToken s := by
    intro s hs
    simp only [List.mem_cons, List.not_mem_nil, or_false] at hs
    rcases hs with rfl | rfl | rfl | rfl | rfl <;> exact ⟨by decide, by simp⟩
  have c1 : IsComma ',' := Or.inr rfl
  have c2 : IsComma ' ' := Or.inl rfl
  refine ⟨["% hello".toList], "@RELATION w".toList, ["@ATTRIBUTE a NUMERIC".toList, [], "@attribute b {x, y}".toList, "@attribute s String".toList], "@data".toList, [],
    ["3,x,hi".toList, "%".toList, "-1, ".toList ++ (v ++ " ho".toList)], ?_, ?_, ?_, ?_, by simp, ?_, ?_, ?_⟩
  · intro l hl; simp only [List.mem_singleton] at hl; subst hl; exact ⟨by simp, by simp, by simp⟩
  · exact ⟨w _ (by simp), "@RELATION".toList, " ".toList, [], by unfold AnyCase; decide, hg, by simp, by simp⟩
  · refine .attr _ _ ⟨w _ (by simp), "@ATTRIBUTE".toList, " ".toList, " ".toList, "NUMERIC".toList, by unfold AnyCase; decide, hg, hg, ?_, rfl⟩ (.skip _ ⟨by simp, by simp, by simp⟩
      (.attr _ _ ⟨w _ (by simp), "@attribute".toList, " ".toList, " ".toList, "{x, y}".toList, by unfold AnyCase; decide, hg, hg, ?_, rfl⟩
      (.attr _ _ ⟨w _ (by simp), "@attribute".toList, " ".toList, " ".toList, "String".toList, by unfold AnyCase; decide, hg, hg, ?_, rfl⟩ .nil)))
    · exact ⟨by simp, _, rfl, by unfold AnyCase; decide⟩
    · refine ⟨by simp, _, rfl, ?_, by decide, by decide⟩
      intro l hl
      simp only [List.mem_cons, List.not_mem_nil, or_false] at hl
      rcases hl with rfl | rfl <;> exact ⟨by decide, by simp [IsSpace]⟩
    · exact ⟨by simp, _, rfl, by unfold AnyCase; decide⟩
  · unfold AnyCase; decide
  · refine .row _ _ (.more [] (by simp) _ (tk _ (by simp)) ',' c1 _ _ (.more [] (by simp) _ (tk _ (by simp)) ',' c1 _ _ (.last [] (by simp) _ (tk _ (by simp))))) (by simp)
      (.comment [] (by simp) (.row _ _ (.more [] (by simp) _ (tk "-1".toList (by simp)) ',' c1 _ _ (.more " ".toList ?_ _ hv ' ' c2 _ _ (.last [] (by simp) _ (tk "ho".toList (by simp))))) (by simp) .nil))
    intro c hc; simp at hc; exact Or.inl hc
  · intro l hl
    simp only [List.cons_append, List.nil_append, List.mem_cons, List.not_mem_nil, or_false] at hl
    rcases hl with rfl | rfl | rfl | rfl | rfl | rfl | rfl | rfl | rfl | rfl
    all_goals first | (simp; done) | (simp; omega)
  · simp [unlines]

theorem arff_example_numbers : GoodColumn .numeric ["3".toList, "-1".toList] :=
  ⟨[3, -1], by decide +kernel, by intro v hv; simp at hv; rcases hv with rfl | rfl <;> exact ⟨by norm_num, by norm_num⟩⟩

/-- The hypotheses of `C89_parseArff_partial` can be met. -/
example : ∃ st, parseArff ("% hello\n@RELATION w\n@ATTRIBUTE a NUMERIC\n\n@attribute b {x, y}\n@attribute s String\n@data\n3,x,hi\n%\n-1, ".toList ++ ("y".toList ++ " ho\n".toList)) = some st ∧
    st.vals.length = 2 := by
  have htok : IsToken "y".toList := ⟨by decide, by simp⟩
  obtain ⟨st, h1, -, -, h2, -⟩ := C89_parseArff_partial (arff_example _ htok (by decide)) (by simp) (by
    intro j d hd
    match j, hd with
    | 0, hd => cases hd; exact arff_example_numbers
    | 1, hd => cases hd; intro t ht; simp [columnOf] at ht; rcases ht with rfl | rfl <;> simp
    | 2, hd => cases hd; trivial
    | n + 3, hd => simp at hd)
  exact ⟨st, h1, h2⟩

/-- Without the condition on nominal attributes the claim fails: a file in which the value `z` is not declared; `x` and `z` get the same code. -/
theorem C89_refuted : ∃ (decls : List (Str × ArffType)) (rows : List (List Str)) (text : Str), ArffFile "w".toList decls rows text ∧ (∀ r ∈ rows, r.length = decls.length) ∧
    ∃ (st : ArffState) (j i i' : Nat) (t t' : Str) (m m' : VarSet), parseArff text = some st ∧ (columnOf rows j)[i]? = some t ∧ (columnOf rows j)[i']? = some t' ∧ t ≠ t' ∧
      st.vals[i]? = some m ∧ st.vals[i']? = some m' ∧ m j = m' j := by
  have htok : IsToken "z".toList := ⟨by decide, by simp⟩
  have hf := arff_example _ htok (by decide)
  have hlen : ∀ r ∈ [["3".toList, "x".toList, "hi".toList], ["-1".toList, "z".toList, "ho".toList]], r.length = [("a".toList, ArffType.numeric), ("b".toList, .nominal ["x".toList, "y".toList]), ("s".toList, .string)].length := by
    simp
  have hnum : ∀ (j : Nat) d, [("a".toList, ArffType.numeric), ("b".toList, .nominal ["x".toList, "y".toList]), ("s".toList, .string)][j]? = some d → d.2 = .numeric →
      GoodColumn .numeric (columnOf [["3".toList, "x".toList, "hi".toList], ["-1".toList, "z".toList, "ho".toList]] j) := by
    intro j d hd hn
    match j, hd with
    | 0, hd => exact arff_example_numbers
    | 1, hd => cases hd; cases hn
    | 2, hd => cases hd; cases hn
    | n + 3, hd => simp at hd
  obtain ⟨st, i, i', t, h1, h2, h3, h4, h5, h6⟩ := C89_collision hf hlen hnum (j := 1) rfl (by simp [columnOf]) ⟨"z".toList, by simp [columnOf], by decide⟩
  obtain ⟨st', h1', -, -, hl, -⟩ := parseArff_result hf hlen hnum
  rw [h1] at h1'
  cases h1'
  have b1 := (List.getElem?_eq_some_iff.1 h2).1
  have b2 := (List.getElem?_eq_some_iff.1 h3).1
  rw [columnOf_length hlen (by decide)] at b1 b2
  refine ⟨_, _, _, hf, hlen, st, 1, i, i', _, _, st.vals[i]'(by omega), st.vals[i']'(by omega), h1, h2, h3, h4.symm, List.getElem?_eq_getElem _, List.getElem?_eq_getElem _, ?_⟩
  rw [h5 _ (List.getElem?_eq_getElem _), h6 _ (List.getElem?_eq_getElem _)]

/-- The types `real` and `integer` of the format are taken for classes with one label: the numbers 1 and 0 get the codes 0 and 1, with one category. -/
theorem C89_real : (parseArff "@relation r\n@attribute x real\n@data\n1\n0\n".toList).map (fun st => (st.attrs.map ArffAttr.cats, st.vals.map fun m => m 0)) = some ([1], [some 0, some 1]) := by
  decide +kernel

end Gospn
