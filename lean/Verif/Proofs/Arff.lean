/-
Lemmas about the model of the ARFF readers.
-/
import Verif.Model.Arff
import Verif.Spec.Arff
import Verif.Proofs.Text
import Verif.Proofs.Folder
import Mathlib.Tactic.Linarith

set_option linter.unusedSectionVars false
set_option linter.unusedSimpArgs false

namespace Gospn

open Spec

theorem fieldsFunc_sep {p : Char → Bool} {sep : Str} (h : ∀ c ∈ sep, p c = true) (s : Str) : fieldsFunc p (sep ++ s) = fieldsFunc p s := by
  induction sep with
  | nil => rfl
  | cons c sep ih =>
    rw [List.cons_append, ← ih fun c hc => h c (by simp [hc])]
    simp [fieldsFunc, splitAt1, h c (by simp)]

theorem fieldsFunc_word {p : Char → Bool} {t : Str} (hne : t ≠ []) (ht : ∀ c ∈ t, p c = false) {c : Char} (hc : p c = true) (s : Str) :
    fieldsFunc p (t ++ c :: s) = t :: fieldsFunc p s := by
  unfold fieldsFunc
  rw [splitAt1_append ht hc, List.filter_cons_of_pos (by simpa using hne)]

theorem fieldsFunc_self {p : Char → Bool} {t : Str} (hne : t ≠ []) (ht : ∀ c ∈ t, p c = false) : fieldsFunc p t = [t] := by
  unfold fieldsFunc
  rw [splitAt1_self ht, List.filter_cons_of_pos (by simpa using hne)]; rfl

theorem fieldsFunc_all {p : Char → Bool} {sep : Str} (h : ∀ c ∈ sep, p c = true) : fieldsFunc p sep = [] := by
  have := fieldsFunc_sep h []
  rw [List.append_nil] at this
  rw [this]; simp [fieldsFunc, splitAt1]

theorem flatten_filter_ne_nil {α : Type} [DecidableEq α] (l : List (List α)) : (l.filter (· ≠ [])).flatten = l.flatten := by
  induction l with
  | nil => rfl
  | cons a l ih =>
    by_cases h : a = []
    · subst h; simpa using ih
    · rw [List.filter_cons_of_pos (by simpa using h), List.flatten_cons, List.flatten_cons, ih]

theorem flatten_consFirst (c : Char) (l : List Str) : (consFirst c l).flatten = c :: l.flatten := by
  cases l <;> simp [consFirst]

theorem fieldsFunc_flatten (p : Char → Bool) (s : Str) : (fieldsFunc p s).flatten = s.filter fun c => !p c := by
  unfold fieldsFunc
  rw [flatten_filter_ne_nil]
  induction s with
  | nil => rfl
  | cons c s ih =>
    rw [splitAt1]
    by_cases h : p c = true
    · simp [h, ih]
    · simp [h, flatten_consFirst, ih]

theorem isSpace_isBlank {c : Char} (h : IsSpace c) : isBlank c = true := by
  rcases h with rfl | rfl <;> decide

theorem not_isBlank {c : Char} (h : ¬ IsSpace c ∧ c ≠ '\n' ∧ c ≠ '\r' ∧ c ≠ '\x0b' ∧ c ≠ '\x0c') : isBlank c = false := by
  obtain ⟨h1, h2, h3, h4, h5⟩ := h
  simp only [IsSpace, not_or] at h1
  simp [isBlank, h1, h2, h3, h4, h5]

theorem tokenRow_fields {ts : List Str} {l : Str} (h : TokenRow ts l) : fieldsFunc (fun c => c = ' ' || c = ',') l = ts := by
  have hs : ∀ {s : Str}, (∀ c ∈ s, IsComma c) → ∀ c ∈ s, (decide (c = ' ') || decide (c = ',')) = true := by
    intro s h c hc; simpa [IsComma] using h c hc
  have ht : ∀ {t : Str}, IsToken t → ∀ c ∈ t, (decide (c = ' ') || decide (c = ',')) = false := by
    intro t h c hc; have := h.2 c hc; simp [this.1, this.2.1]
  induction h with
  | done s h => exact fieldsFunc_all (hs h)
  | last s h t h' => rw [fieldsFunc_sep (hs h), fieldsFunc_self h'.1 (ht h')]
  | more s h t h' c hc ts l _ ih => rw [fieldsFunc_sep (hs h), fieldsFunc_word h'.1 (ht h') (by simpa [IsComma] using hc), ih]

theorem tokenRow_chars {ts : List Str} {l : Str} (h : TokenRow ts l) : '\n' ∉ l ∧ '\r' ∉ l := by
  have hs : ∀ {s : Str}, (∀ c ∈ s, IsComma c) → '\n' ∉ s ∧ '\r' ∉ s := by
    intro s h
    constructor <;> intro hc <;> rcases h _ hc with h | h <;> exact absurd h (by decide)
  have ht : ∀ {t : Str}, IsToken t → '\n' ∉ t ∧ '\r' ∉ t := by
    intro t h
    exact ⟨fun hc => (h.2 _ hc).2.2.1 rfl, fun hc => (h.2 _ hc).2.2.2 rfl⟩
  induction h with
  | done s h => exact hs h
  | last s h t h' => simp [hs h, ht h']
  | more s h t h' c hc ts l _ ih =>
    have : '\n' ≠ c ∧ '\r' ≠ c := by rcases hc with rfl | rfl <;> decide
    simp [hs h, ht h', ih, this]

theorem isLabel_sep {l : Str} (h : IsLabel l) : ∀ c ∈ l, (decide (c = ' ') || decide (c = ',') || decide (c = '{') || decide (c = '}')) = false := by
  intro c hc
  obtain ⟨h1, h2, h3, h4, -⟩ := h.2 c hc
  simp only [IsSpace, not_or] at h1
  simp [h1, h2, h3, h4]

theorem commaList_fields {ls : List Str} (h : ∀ l ∈ ls, IsLabel l) :
    fieldsFunc (fun c => c = ' ' || c = ',' || c = '{' || c = '}') ('{' :: commaList ls ++ ['}']) = ls := by
  have h1 : ∀ s, fieldsFunc (fun c => c = ' ' || c = ',' || c = '{' || c = '}') ('{' :: s) = fieldsFunc (fun c => c = ' ' || c = ',' || c = '{' || c = '}') s := fun s =>
    fieldsFunc_sep (sep := ['{']) (by simp) s
  rw [List.cons_append, h1]
  induction ls with
  | nil => exact fieldsFunc_all (by simp [commaList])
  | cons l ls ih =>
    have hl := h l (by simp)
    cases ls with
    | nil => rw [commaList, fieldsFunc_word hl.1 (isLabel_sep hl) (by decide)]; rfl
    | cons l' ls =>
      rw [commaList, List.append_assoc, List.cons_append, fieldsFunc_word hl.1 (isLabel_sep hl) (by decide), ih fun l hl => h l (by simp [hl])]

/-- The code of each of some names: its position. -/
def posDict (names : List Str) : Str → Option Int := fun t => if t ∈ names then some (names.idxOf t : Int) else none

theorem dict_foldl {ls : List Str} (hd : ls.Nodup) (k : Nat) (d : Str → Option Int) :
    (ls.zipIdx k).foldl (fun (d : Str → Option Int) (x : Str × Nat) => Function.update d x.1 (some (x.2 : Int))) d = fun t => if t ∈ ls then some ((k + ls.idxOf t : Nat) : Int) else d t := by
  induction ls generalizing k d with
  | nil => funext t; simp
  | cons l ls ih =>
    rw [List.zipIdx_cons, List.foldl_cons, ih (List.nodup_cons.1 hd).2]
    funext t
    have hl := (List.nodup_cons.1 hd).1
    by_cases h1 : t = l
    · subst h1
      simp [hl]
    · have h1' : ¬ l = t := fun h => h1 h.symm
      by_cases h2 : t ∈ ls
      · rw [if_pos h2, if_pos (by simp [h2]), List.idxOf_cons_ne _ h1']
        congr 2; omega
      · rw [if_neg h2, if_neg (by simp [h1, h2])]; simp [Function.update, h1]

/-- What is kept for an attribute before the data. -/
def initAttr (d : Str × ArffType) : ArffAttr :=
  match d.2 with
  | .numeric => ⟨.numeric, d.1, 0, fun _ => none, 0⟩
  | .string => ⟨.str, d.1, 0, fun _ => none, 0⟩
  | .nominal ls => ⟨.cls, d.1, ls.length, posDict ls, 0⟩

theorem anyCase_mem {w : String} {s : Str} (h : AnyCase w s) : lowerStr s = w.toList := h

theorem anyCase_not_blank {w : String} (hw : ∀ c ∈ w.toList, isBlank c = false) {s : Str} (h : AnyCase w s) : ∀ c ∈ s, isBlank c = false := by
  intro c hc
  by_contra hn
  have hb : isBlank c = true := by simpa using hn
  have : c.toLower ∈ w.toList := by rw [← h]; exact List.mem_map_of_mem hc
  have := hw _ this
  simp only [isBlank, Bool.or_eq_true, decide_eq_true_eq] at hb
  rcases hb with (((((h | h) | h) | h) | h) | h) <;> subst h <;> exact absurd this (by decide)

theorem anyCase_ne_nil {w : String} (hw : w.toList ≠ []) {s : Str} (h : AnyCase w s) : s ≠ [] := by
  rintro rfl; exact hw h.symm

theorem gap_fields {g : Str} (hg : IsGap g) {t : Str} (hne : t ≠ []) (ht : ∀ c ∈ t, isBlank c = false) (s : Str) :
    wordFields (t ++ (g ++ s)) = t :: wordFields s := by
  obtain ⟨c, g', rfl⟩ := List.exists_cons_of_ne_nil hg.1
  unfold wordFields
  rw [List.cons_append, fieldsFunc_word hne ht (isSpace_isBlank (hg.2 c (by simp))), fieldsFunc_sep fun c hc => isSpace_isBlank (hg.2 c (by simp [hc]))]

theorem attrLine_spec {d : Str × ArffType} {l : Str} (h : AttrLine d l) : arffAttr l = some (initAttr d) := by
  obtain ⟨hw, kw, g, g', t, hk, hg, hg', ht, rfl⟩ := h
  have hkb := anyCase_not_blank (by decide) hk
  have hf : wordFields (kw ++ (g ++ (d.1 ++ (g' ++ t)))) = kw :: d.1 :: wordFields t := by
    rw [gap_fields hg (anyCase_ne_nil (by decide) hk) hkb, gap_fields hg' hw.1 fun c hc => not_isBlank (hw.2 c hc)]
  unfold arffAttr
  rw [hf]
  have h0 : (kw :: d.1 :: wordFields t)[1]? = some d.1 := rfl
  have h2 : (kw :: d.1 :: wordFields t).drop 2 = wordFields t := rfl
  rw [h0, h2, Option.map_some]
  obtain ⟨hc, u, hu, ht⟩ := ht
  have hfl : (wordFields t).flatten = u := by
    unfold wordFields
    rw [fieldsFunc_flatten, ← hu]
    refine List.filter_congr fun c hcm => ?_
    obtain ⟨h1, h2, h3, h4⟩ := hc c hcm
    simp [isBlank, h1, h2, h3, h4]
  simp only [hfl]
  congr 1
  unfold initAttr
  rcases d with ⟨n, ty⟩
  cases ty with
  | numeric =>
    have : lowerStr u = ['n', 'u', 'm', 'e', 'r', 'i', 'c'] := ht
    rw [if_pos this]
  | string =>
    have : lowerStr u = ['s', 't', 'r', 'i', 'n', 'g'] := ht
    rw [if_neg (by rw [this]; decide), if_pos this]
  | nominal ls =>
    obtain ⟨hl, hd, rfl⟩ := ht
    have hlow : lowerStr ('{' :: commaList ls ++ ['}']) = '{' :: lowerStr (commaList ls ++ ['}']) := rfl
    rw [if_neg (by rw [hlow]; simp), if_neg (by rw [hlow]; simp), commaList_fields hl, dict_foldl hd]
    simp only [Nat.zero_add]
    rfl

/-! ### Columns -/

/-- The values of one attribute. -/
def attrRun (a : ArffAttr) : List Str → Option (ArffAttr × List Int)
  | [] => some (a, [])
  | t :: ts => (arffCell a t).bind fun r => (attrRun r.1 ts).map fun q => (q.1, r.2 :: q.2)

theorem idxOf_prefix {names names' : List Str} (h : names <+: names') {t : Str} (ht : t ∈ names) : names'.idxOf t = names.idxOf t := by
  obtain ⟨s, rfl⟩ := h
  exact List.idxOf_append_of_mem ht

theorem posDict_snoc {names : List Str} {t : Str} (ht : t ∉ names) : Function.update (posDict names) t (some (names.length : Int)) = posDict (names ++ [t]) := by
  funext s
  unfold posDict Function.update
  by_cases h : s = t
  · subst h; simp [ht, List.idxOf_append_of_notMem ht]
  · by_cases h' : s ∈ names
    · simp [h, h', List.idxOf_append_of_mem h']
    · simp [h, h']

theorem attrRun_str (nm : Str) (col : List Str) : ∀ names : List Str, names.Nodup → ∃ names', names <+: names' ∧ names'.Nodup ∧ (∀ t, t ∈ names' ↔ t ∈ names ∨ t ∈ col) ∧
    attrRun ⟨.str, nm, names.length, posDict names, names.length⟩ col =
      some (⟨.str, nm, names'.length, posDict names', names'.length⟩, col.map fun t => (names'.idxOf t : Int)) := by
  induction col with
  | nil => intro names hn; exact ⟨names, List.prefix_refl _, hn, by simp, rfl⟩
  | cons t col ih =>
    intro names hn
    by_cases ht : t ∈ names
    · obtain ⟨names', hp, hn', hm, hr⟩ := ih names hn
      refine ⟨names', hp, hn', fun s => ?_, ?_⟩
      · rw [hm]; simp only [List.mem_cons]
        constructor
        · rintro (h | h) <;> simp [h]
        · rintro (h | rfl | h) <;> simp [*]
      · have : arffCell ⟨.str, nm, names.length, posDict names, names.length⟩ t = some (⟨.str, nm, names.length, posDict names, names.length⟩, (names.idxOf t : Int)) := by
          simp [arffCell, posDict, ht]
        rw [attrRun, this, Option.bind_some, hr, Option.map_some, List.map_cons, idxOf_prefix hp ht]
    · obtain ⟨names', hp, hn', hm, hr⟩ := ih (names ++ [t]) (by
        rw [List.nodup_append]; exact ⟨hn, by simp, by simp; exact fun a ha h => ht (h ▸ ha)⟩)
      have hmt : t ∈ names ++ [t] := by simp
      refine ⟨names', (List.prefix_append _ _).trans hp, hn', fun s => ?_, ?_⟩
      · rw [hm]; simp [or_assoc]
      · have : arffCell ⟨.str, nm, names.length, posDict names, names.length⟩ t =
            some (⟨.str, nm, (names ++ [t]).length, posDict (names ++ [t]), (names ++ [t]).length⟩, (names.length : Int)) := by
          rw [← posDict_snoc ht]
          simp [arffCell, posDict, ht]
        rw [attrRun, this, Option.bind_some, hr, Option.map_some, List.map_cons, idxOf_prefix hp hmt, List.idxOf_append_of_notMem ht]
        simp

/-- The labels that are declared, and then those that are not, in the order in which they occur. -/
def clsDict (ls us : List Str) : Str → Option Int := fun t => if t ∈ ls then some (ls.idxOf t : Int) else posDict us t

/-- The code of a value of a nominal attribute. -/
def clsCode (ls us : List Str) (t : Str) : Int := if t ∈ ls then (ls.idxOf t : Int) else (us.idxOf t : Int)

theorem attrRun_cls (nm : Str) (cats : Int) (ls : List Str) (col : List Str) : ∀ us : List Str, us.Nodup → (∀ t ∈ us, t ∉ ls) → ∃ us', us <+: us' ∧ us'.Nodup ∧
    (∀ t, t ∈ us' ↔ t ∈ us ∨ t ∈ col ∧ t ∉ ls) ∧
    attrRun ⟨.cls, nm, cats, clsDict ls us, us.length⟩ col = some (⟨.cls, nm, cats, clsDict ls us', us'.length⟩, col.map (clsCode ls us')) := by
  induction col with
  | nil => intro us hn _; exact ⟨us, List.prefix_refl _, hn, by simp, rfl⟩
  | cons t col ih =>
    intro us hn hdis
    by_cases hl : t ∈ ls
    · obtain ⟨us', hp, hn', hm, hr⟩ := ih us hn hdis
      refine ⟨us', hp, hn', fun s => ?_, ?_⟩
      · rw [hm]; simp only [List.mem_cons]
        constructor
        · rintro (h | ⟨h, h'⟩)
          · exact Or.inl h
          · exact Or.inr ⟨Or.inr h, h'⟩
        · rintro (h | ⟨rfl | h, h'⟩)
          · exact Or.inl h
          · exact absurd hl h'
          · exact Or.inr ⟨h, h'⟩
      · have : arffCell ⟨.cls, nm, cats, clsDict ls us, us.length⟩ t = some (⟨.cls, nm, cats, clsDict ls us, us.length⟩, clsCode ls us' t) := by
          simp [arffCell, clsDict, clsCode, hl]
        rw [attrRun, this, Option.bind_some, hr, Option.map_some, List.map_cons]
    · by_cases ht : t ∈ us
      · obtain ⟨us', hp, hn', hm, hr⟩ := ih us hn hdis
        refine ⟨us', hp, hn', fun s => ?_, ?_⟩
        · rw [hm]; simp only [List.mem_cons]
          constructor
          · rintro (h | ⟨h, h'⟩)
            · exact Or.inl h
            · exact Or.inr ⟨Or.inr h, h'⟩
          · rintro (h | ⟨rfl | h, h'⟩)
            · exact Or.inl h
            · exact Or.inl ht
            · exact Or.inr ⟨h, h'⟩
        · have : arffCell ⟨.cls, nm, cats, clsDict ls us, us.length⟩ t = some (⟨.cls, nm, cats, clsDict ls us, us.length⟩, clsCode ls us' t) := by
            simp [arffCell, clsDict, clsCode, hl, posDict, ht, idxOf_prefix hp ht]
          rw [attrRun, this, Option.bind_some, hr, Option.map_some, List.map_cons]
      · obtain ⟨us', hp, hn', hm, hr⟩ := ih (us ++ [t]) (by
          rw [List.nodup_append]; exact ⟨hn, by simp, by simp; exact fun a ha h => ht (h ▸ ha)⟩) (by
          intro s hs
          rcases List.mem_append.1 hs with hs | hs
          · exact hdis s hs
          · simp at hs; subst hs; exact hl)
        have hmt : t ∈ us ++ [t] := by simp
        refine ⟨us', (List.prefix_append _ _).trans hp, hn', fun s => ?_, ?_⟩
        · rw [hm]; simp only [List.mem_append, List.mem_cons, List.not_mem_nil, or_false]
          constructor
          · rintro ((h | rfl) | ⟨h, h'⟩)
            · exact Or.inl h
            · exact Or.inr ⟨Or.inl rfl, hl⟩
            · exact Or.inr ⟨Or.inr h, h'⟩
          · rintro (h | ⟨rfl | h, h'⟩)
            · exact Or.inl (Or.inl h)
            · exact Or.inl (Or.inr rfl)
            · exact Or.inr ⟨h, h'⟩
        · have hupd : Function.update (clsDict ls us) t (some (us.length : Int)) = clsDict ls (us ++ [t]) := by
            funext s
            by_cases h : s = t
            · subst h
              simp [clsDict, hl, posDict, List.idxOf_append_of_notMem ht]
            · have := congrFun (posDict_snoc ht) s
              simp only [Function.update, h, dite_false] at this
              simp only [Function.update, h, dite_false, clsDict, this]
          have : arffCell ⟨.cls, nm, cats, clsDict ls us, us.length⟩ t =
              some (⟨.cls, nm, cats, clsDict ls (us ++ [t]), (us ++ [t]).length⟩, clsCode ls us' t) := by
            rw [← hupd]
            have hc : clsCode ls us' t = us.length := by
              rw [clsCode, if_neg hl, idxOf_prefix hp hmt, List.idxOf_append_of_notMem ht]; simp
            rw [hc]
            simp [arffCell, clsDict, hl, posDict, ht]
          rw [attrRun, this, Option.bind_some, hr, Option.map_some, List.map_cons]

theorem attrRun_numeric (nm : Str) (vs : List Int) (hr : ∀ v ∈ vs, Int64Range v) : ∀ cats : Int, 0 ≤ cats → ∃ cats', cats ≤ cats' ∧ (∀ v ∈ vs, v < cats') ∧ (cats' = cats ∨ cats' - 1 ∈ vs) ∧
    attrRun ⟨.numeric, nm, cats, fun _ => none, 0⟩ (vs.map decimal) = some (⟨.numeric, nm, cats', fun _ => none, 0⟩, vs) := by
  induction vs with
  | nil => intro cats _; exact ⟨cats, le_refl _, by simp, Or.inl rfl, rfl⟩
  | cons v vs ih =>
    intro cats h0
    have hcell : arffCell ⟨.numeric, nm, cats, fun _ => none, 0⟩ (decimal v) = some (⟨.numeric, nm, if v + 1 > cats then v + 1 else cats, fun _ => none, 0⟩, v) := by
      simp only [arffCell, decimal_atoi (hr v (by simp)), Option.map_some]
      split <;> rfl
    obtain ⟨cats', h1, h2, h3, h4⟩ := ih (fun v hv => hr v (by simp [hv])) (if v + 1 > cats then v + 1 else cats) (by split <;> omega)
    refine ⟨cats', by split at h1 <;> omega, ?_, ?_, ?_⟩
    · intro w hw
      rcases List.mem_cons.1 hw with rfl | hw
      · split at h1 <;> omega
      · exact h2 w hw
    · rcases h3 with h3 | h3
      · split at h3
        · right; rw [h3]; simp
        · left; exact h3
      · right; simp [h3]
    · rw [List.map_cons, attrRun, hcell, Option.bind_some, h4, Option.map_some]

/-! ### Rows -/

theorem zipIdx_foldl_row (f : List ArffAttr × VarSet → Str × Nat → Option (List ArffAttr × VarSet))
    (hf : f = fun s x => (s.1[x.2]?).bind fun a => (arffCell a x.1).map fun r => (s.1.set x.2 r.1, s.2.set (x.2 : Int) r.2))
    (toks : List Str) : ∀ (b : Nat) (s : List ArffAttr × VarSet) (as' : List ArffAttr) (vs : List Int), b + toks.length ≤ s.1.length → as'.length = toks.length → vs.length = toks.length →
    (∀ j a t a' v, s.1[b + j]? = some a → toks[j]? = some t → as'[j]? = some a' → vs[j]? = some v → arffCell a t = some (a', v)) →
    (toks.zipIdx b).foldlM f s = some (s.1.take b ++ as' ++ s.1.drop (b + toks.length),
      fun k => if (b : Int) ≤ k ∧ k < b + toks.length then vs[(k - b).toNat]? else s.2 k) := by
  induction toks with
  | nil =>
    intro b s as' vs hb ha hv _
    have : as' = [] := by simpa using ha
    subst this
    simp only [List.zipIdx_nil, List.foldlM_nil, List.append_nil, List.length_nil, Nat.add_zero, List.take_append_drop]
    show some s = _
    congr 1
    ext1
    · rfl
    · funext k
      beta_reduce
      exact (if_neg (by simp)).symm
  | cons t toks ih =>
    intro b s as' vs hb ha hv H
    cases as' with
    | nil => simp at ha
    | cons a' as' =>
      cases vs with
      | nil => simp at hv
      | cons v vs =>
        simp only [List.length_cons] at hb ha hv
        obtain ⟨a, hga⟩ : ∃ a, s.1[b]? = some a := ⟨s.1[b]'(by omega), by rw [List.getElem?_eq_getElem]⟩
        have hc := H 0 a t a' v (by simpa using hga) rfl rfl rfl
        have hstep : f s (t, b) = some (s.1.set b a', s.2.set (b : Int) v) := by rw [hf]; simp [hga, hc]
        rw [List.zipIdx_cons, List.foldlM_cons, hstep]
        show (toks.zipIdx (b + 1)).foldlM f _ = _
        rw [ih (b + 1) _ as' vs (by simp; omega) (by omega) (by omega) ?_]
        · congr 1
          have hlen : b < s.1.length := by omega
          ext1
          · show (s.1.set b a').take (b + 1) ++ as' ++ (s.1.set b a').drop (b + 1 + toks.length) = s.1.take b ++ a' :: as' ++ s.1.drop (b + (toks.length + 1))
            rw [List.take_add_one, List.take_set_of_le (le_refl b), List.getElem?_set_self hlen, List.drop_set_of_lt (by omega)]
            simp [Nat.add_assoc, Nat.add_comm 1]
          · funext k
            show (if ((b + 1 : Nat) : Int) ≤ k ∧ k < ((b + 1 : Nat) : Int) + toks.length then vs[(k - ((b + 1 : Nat) : Int)).toNat]? else VarSet.set s.2 (b : Int) v k) =
              if (b : Int) ≤ k ∧ k < b + ((t :: toks).length : Nat) then (v :: vs)[(k - b).toNat]? else s.2 k
            by_cases h1 : k = b
            · subst h1
              rw [if_neg (by omega), if_pos (by simp)]
              simp [VarSet.set]
            · by_cases h2 : (b : Int) ≤ k ∧ k < b + ((t :: toks).length : Nat)
              · rw [if_pos h2, if_pos (by simp at h2; omega)]
                have : (k - b).toNat = (k - ((b + 1 : Nat) : Int)).toNat + 1 := by omega
                rw [this, List.getElem?_cons_succ]
              · rw [if_neg h2, if_neg (by simp at h2; omega)]
                simp [VarSet.set, h1]
        · intro j a₁ t₁ a₂ v₁ h1 h2 h3 h4
          refine H (j + 1) a₁ t₁ a₂ v₁ ?_ h2 h3 h4
          rw [← h1]
          show s.1[b + (j + 1)]? = (s.1.set b a')[b + 1 + j]?
          rw [List.getElem?_set_ne (by omega)]
          congr 1; omega

/-- A line with one value for each attribute. -/
theorem arffRow_spec {attrs as' : List ArffAttr} {r : List Str} {vs : List Int} {l : Str} (hl : TokenRow r l) (hlen : r.length = attrs.length) (ha : as'.length = r.length)
    (hv : vs.length = r.length) (H : ∀ (j : Nat) a t a' v, attrs[j]? = some a → r[j]? = some t → as'[j]? = some a' → vs[j]? = some v → arffCell a t = some (a', v)) :
    arffRow attrs l = some (as', lineInstance vs) := by
  unfold arffRow
  rw [tokenRow_fields hl]
  rw [zipIdx_foldl_row _ rfl r 0 (attrs, VarSet.empty) as' vs (by simp [hlen]) ha hv (by simpa using H)]
  congr 1
  ext1
  · simp [hlen]
  · funext k
    show (if ((0 : Nat) : Int) ≤ k ∧ k < ((0 : Nat) : Int) + r.length then vs[(k - ((0 : Nat) : Int)).toNat]? else VarSet.empty k) = lineInstance vs k
    unfold lineInstance VarSet.empty
    by_cases h : 0 ≤ k
    · by_cases h' : k < r.length
      · rw [if_pos (by omega), if_pos h]; simp
      · rw [if_neg (by omega), if_pos h, List.getElem?_eq_none (by omega)]
    · rw [if_neg (by omega), if_neg h]

theorem arffRow_too_many {attrs : List ArffAttr} {r : List Str} {l : Str} (hl : TokenRow r l) (hlen : attrs.length < r.length) : arffRow attrs l = none := by
  unfold arffRow
  rw [tokenRow_fields hl]
  have key : ∀ (toks : List Str) (b : Nat) (s : List ArffAttr × VarSet), s.1.length < b + toks.length → s.1.length ≥ b →
      (toks.zipIdx b).foldlM (fun (s : List ArffAttr × VarSet) (x : Str × Nat) =>
        (s.1[x.2]?).bind fun a => (arffCell a x.1).map fun r => (s.1.set x.2 r.1, s.2.set (x.2 : Int) r.2)) s = none := by
    intro toks
    induction toks with
    | nil => intro b s h1 h2; simp at h1; omega
    | cons t toks ih =>
      intro b s h1 h2
      rw [List.zipIdx_cons, List.foldlM_cons]
      by_cases hb : s.1.length = b
      · have : s.1[b]? = none := List.getElem?_eq_none (by omega)
        simp [this]
      · cases hc : arffCell (s.1[b]'(by omega)) t with
        | none => simp [List.getElem?_eq_getElem (show b < s.1.length by omega), hc]
        | some q =>
          simp only [List.getElem?_eq_getElem (show b < s.1.length by omega), Option.bind_some, hc, Option.map_some, Option.bind_eq_bind]
          exact ih (b + 1) _ (by simp at h1 ⊢; omega) (by simp; omega)
  exact key r 0 _ (by simpa using hlen) (by simp)

end Gospn
