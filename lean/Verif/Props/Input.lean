import Verif.Proofs.Input
import Mathlib.Tactic.NormNum
set_option linter.unusedSectionVars false
set_option linter.unusedSimpArgs false
/-
C84: the readers of data files return what is written in the file, except that a line of 64 KB or more silently ends it.
-/
namespace Gospn
open Spec

theorem DataFile_chars {decls : List (Int × Int)} {rows : List (List Int)} {lines : List Str} (h : DataFile decls rows lines) :
    ∀ l ∈ decls.map declLine ++ lines, '\n' ∉ l ∧ '\r' ∉ l := by
  intro l hl
  rcases List.mem_append.1 hl with hl | hl
  · obtain ⟨d, -, rfl⟩ := List.mem_map.1 hl
    exact declLine_chars d
  · obtain ⟨i, hi⟩ := List.getElem?_of_mem hl
    have hlen := h.written.length_eq
    have hi' : i < lines.length := (List.getElem?_eq_some_iff.1 hi).1
    have hw := List.forall₂_iff_get.1 h.written
    have := hw.2 i (by omega) hi'
    have e : lines.get ⟨i, hi'⟩ = l := by rw [List.getElem?_eq_getElem hi'] at hi; simpa using hi
    rw [e] at this
    exact this.chars

theorem mapM_forall₂ {α β γ : Type} {R : α → β → Prop} {f : β → Option γ} {g : α → γ} {as : List α} {bs : List β} (h : List.Forall₂ R as bs)
    (hf : ∀ a b, a ∈ as → R a b → f b = some (g a)) : bs.mapM f = some (as.map g) := by
  induction h with
  | nil => rfl
  | cons hab h ih =>
    rw [List.mapM_cons, hf _ _ (by simp) hab, ih fun a b ha hr => hf a b (by simp [ha]) hr]
    rfl

theorem takeWhile_all' {α : Type} {p : α → Bool} {l : List α} (h : ∀ a ∈ l, p a = true) : l.takeWhile p = l := by
  induction l with
  | nil => rfl
  | cons a l ih => rw [List.takeWhile_cons_of_pos (h a (by simp)), ih fun b hb => h b (by simp [hb])]

theorem readVars_file {decls : List (Int × Int)} {rows : List (List Int)} {line : Str} {lines : List Str} (h : DataFile decls rows (line :: lines)) (more : List Str) (l0 : Str) :
    readVars (decls.map declLine ++ (line :: more)) [] l0 = some (decls, line, more) := by
  rw [readVars_spec _ _ _ _ h.declRange (by simpa using h.ids), List.nil_append]
  cases h.written with
  | cons h1 h2 => exact readVars_row h1 _ _ _

/-- `ParseData` returns the definitions and, for each row, the instance of its first values, one for each variable. -/
theorem C84_parseData_partial {decls : List (Int × Int)} {rows : List (List Int)} {lines : List Str} (h : DataFile decls rows lines) (hne : rows ≠ [])
    (hlen : ∀ r ∈ rows, decls.length ≤ r.length) (hshort : ∀ l ∈ decls.map declLine ++ lines, l.length < 65536) :
    parseData (dataText decls lines) = some (decls, rows.map fun r => lineInstance (r.take decls.length)) := by
  unfold parseData dataText
  rw [scanLines_unlines (DataFile_chars h), takeWhile_all' fun l hl => by simpa using hshort l hl]
  cases lines with
  | nil => cases h.written; exact absurd rfl hne
  | cons line lines =>
    rw [readVars_file h, Option.bind_some]
    simp only [readLines_eq]
    rw [mapM_forall₂ (g := fun r => r.take decls.length) h.written fun a b ha hr => readLine_spec hr (h.rowRange a ha) (hlen a ha), Option.map_some, matrixToData_eq, List.map_map]
    rfl

/-- A line of 65536 or more characters ends the file: it and all rows after it are lost, without any error. -/
theorem C84_long_line {decls : List (Int × Int)} {rows : List (List Int)} {lines : List Str} (h : DataFile decls rows lines) (hne : rows ≠ [])
    (hlen : ∀ r ∈ rows, decls.length ≤ r.length) (hshort : ∀ l ∈ decls.map declLine ++ lines, l.length < 65536) (long : Str) (more : List Str)
    (hlong : 65536 ≤ long.length) (hmore : ∀ l ∈ long :: more, '\n' ∉ l ∧ '\r' ∉ l) :
    parseData (dataText decls (lines ++ long :: more)) = some (decls, rows.map fun r => lineInstance (r.take decls.length)) := by
  rw [← C84_parseData_partial h hne hlen hshort]
  unfold parseData dataText
  rw [scanLines_unlines (DataFile_chars h), ← List.append_assoc, scanLines_unlines, List.takeWhile_append_of_pos fun l hl => by simpa using hshort l hl,
    List.takeWhile_cons_of_neg (by simpa using hlong), takeWhile_all' fun l hl => by simpa using hshort l hl, List.append_nil]
  intro l hl
  rcases List.mem_append.1 hl with hl | hl
  · exact DataFile_chars h l hl
  · exact hmore l hl

/-- So a row can be written that is not read: rows of long values, over one variable. -/
theorem C84_lost_rows : ∃ (decls : List (Int × Int)) (rows : List (List Int)) (lines : List Str), DataFile decls rows lines ∧ rows.length = 2 ∧
    (∀ r ∈ rows, decls.length ≤ r.length) ∧ ∃ D, parseData (dataText decls lines) = some (decls, D) ∧ D.length = 1 := by
  have hlong : ∀ n : Nat, WritesRow [1] (decimal 1 ++ List.replicate n ' ') := fun n =>
    WritesRow.last 1 _ fun c hc => Or.inr (Or.inl (List.eq_of_mem_replicate hc))
  have h0 : WritesRow [0] (decimal 0) := by simpa using WritesRow.last 0 [] (by simp)
  have hr : ∀ v : Int, v = 0 ∨ v = 1 ∨ v = 2 → Int64Range v := by rintro v (rfl | rfl | rfl) <;> (constructor <;> norm_num)
  have h1 : DataFile [(0, 2)] [[0]] [decimal 0] :=
    ⟨by simp, by simp [hr], List.Forall₂.cons h0 List.Forall₂.nil, by simp [hr]⟩
  refine ⟨[(0, 2)], [[0], [1]], [decimal 0, decimal 1 ++ List.replicate 65536 ' '],
    ⟨by simp, by simp [hr], List.Forall₂.cons h0 (List.Forall₂.cons (hlong _) List.Forall₂.nil), by simp [hr]⟩, rfl, by simp, ?_⟩
  refine ⟨_, C84_long_line h1 (by simp) (by simp) ?_ (decimal 1 ++ List.replicate 65536 ' ') [] (by rw [List.length_append, List.length_replicate]; omega) ?_, rfl⟩
  · simp only [List.map_cons, List.map_nil, List.cons_append, List.nil_append, List.mem_cons, List.not_mem_nil, or_false]
    rintro l (rfl | rfl)
    · have : (declLine (0, 2)).length = 7 := by decide +kernel
      omega
    · have : (decimal 0).length = 1 := by decide +kernel
      omega
  · intro l hl
    rw [List.mem_singleton] at hl
    subst hl
    exact (hlong _).chars

/-- A row with too few values panics. -/
theorem C84_short_row {decls : List (Int × Int)} {rows : List (List Int)} {lines : List Str} (h : DataFile decls rows lines)
    (hex : ∃ r ∈ rows, r.length < decls.length) (hshort : ∀ l ∈ decls.map declLine ++ lines, l.length < 65536) :
    parseData (dataText decls lines) = none := by
  unfold parseData dataText
  rw [scanLines_unlines (DataFile_chars h), takeWhile_all' fun l hl => by simpa using hshort l hl]
  obtain ⟨r, hr, hlt⟩ := hex
  cases lines with
  | nil => cases h.written; simp at hr
  | cons line lines =>
    rw [readVars_file h, Option.bind_some]
    simp only [readLines_eq]
    cases hm : (line :: lines).mapM (readLine decls.length) with
    | none => rfl
    | some out =>
      exfalso
      obtain ⟨i, hi⟩ := List.getElem?_of_mem hr
      have hi' : i < rows.length := (List.getElem?_eq_some_iff.1 hi).1
      have hw := List.forall₂_iff_get.1 h.written
      have hi2 : i < (line :: lines).length := by omega
      have h3 := hw.2 i hi' hi2
      have e : rows.get ⟨i, hi'⟩ = r := by rw [List.getElem?_eq_getElem hi'] at hi; simpa using hi
      rw [e] at h3
      obtain ⟨b, hb⟩ := mapM_mem_some hm ((line :: lines).get ⟨i, hi2⟩) (List.get_mem _ _)
      rw [readLine_short h3 hlt] at hb
      cases hb

/-- A file that ends after the definitions panics. -/
theorem C84_no_rows {decls : List (Int × Int)} (hne : decls ≠ []) (hids : (decls.map Prod.fst).Nodup) (hr : ∀ d ∈ decls, Int64Range d.1 ∧ Int64Range d.2)
    (hshort : ∀ l ∈ decls.map declLine, l.length < 65536) : parseData (dataText decls []) = none := by
  unfold parseData dataText
  rw [List.append_nil, scanLines_unlines, takeWhile_all' fun l hl => by simpa using hshort l hl]
  · have := readVars_spec [] decls [] [] hr (by simpa using hids)
    rw [List.append_nil] at this
    rw [this, List.nil_append, readVars, Option.bind_some]
    simp only [readLines_eq]
    obtain ⟨ds, d, rfl⟩ := List.eq_nil_or_concat' decls |>.resolve_left hne
    have e : ([] :: (ds ++ [d]).map declLine).getLast (by simp) = declLine d := by simp
    rw [e, List.mapM_cons]
    have : readLine (ds ++ [d]).length (declLine d) = none := by
      unfold readLine
      cases hm : (List.range (ds ++ [d]).length).mapM fun j => ((splitRuns isComma (declLine d))[j]?).bind atoi with
      | none => rfl
      | some r =>
        exfalso
        obtain ⟨b, hb⟩ := mapM_mem_some hm 0 (by simp)
        have e : declLine d = ['v', 'a', 'r'] ++ ([' '] ++ (decimal d.1 ++ (' ' :: decimal d.2))) := rfl
        obtain ⟨c, t, h1, h2⟩ := decimal_head d.1
        rw [e, splitRuns_append (by decide) (by simp) (by decide) _ (by rw [h1]; simp [not_isComma_of h2])] at hb
        simp only [List.getElem?_cons_zero, Option.bind_some] at hb
        rw [show atoi ['v', 'a', 'r'] = none by decide +kernel] at hb
        cases hb
    rw [this]; rfl
  · intro l hl
    obtain ⟨d, -, rfl⟩ := List.mem_map.1 hl
    exact declLine_chars d

/-- `ParseDataNL` returns the last variable apart: the variable number `n` is not among the variables, and the labels are the values number `n`. -/
theorem C84_parseDataNL_partial {decls : List (Int × Int)} {rows : List (List Int)} {lines : List Str} (n : Nat) (hn : decls.length = n + 1) (h : DataFile decls rows lines)
    (hne : rows ≠ []) (hlen : ∀ r ∈ rows, decls.length ≤ r.length) (hshort : ∀ l ∈ decls.map declLine ++ lines, l.length < 65536) :
    parseDataNL (dataText decls lines) =
      some (decls.filter (fun d => d.1 ≠ (n : Int)), rows.map (fun r => lineInstance (r.take n)), rows.map fun r => r.getD n 0) := by
  unfold parseDataNL dataText
  rw [scanLines_unlines (DataFile_chars h), takeWhile_all' fun l hl => by simpa using hshort l hl]
  cases lines with
  | nil => cases h.written; exact absurd rfl hne
  | cons line lines =>
    rw [readVars_file h, Option.bind_some]
    simp only [readLines_eq]
    rw [if_neg (by omega), hn, Nat.add_sub_cancel]
    rw [mapM_forall₂ (g := fun r => (r.take n, r.getD n 0)) h.written fun a b ha hr => readLabelled_spec hr (h.rowRange a ha) (by have := hlen a ha; omega), Option.map_some,
      matrixToData_eq, List.map_map, List.map_map, List.map_map]
    have : (((n + 1 : Nat) : Int) - 1) = n := by omega
    rw [this]
    rfl

theorem labelLine_chars (ls : List Int) : '\n' ∉ labelLine ls ∧ '\r' ∉ labelLine ls := by
  have hd : ∀ v : Int, '\n' ∉ decimal v ∧ '\r' ∉ decimal v := by
    intro v
    constructor <;> intro hc <;> exact absurd (decimal_not_comma v _ hc) (by decide)
  have e : labelLine ls = 'l' :: 'a' :: 'b' :: 'e' :: 'l' :: 's' :: ' ' :: (decimal ls.length ++ ls.flatMap fun l => ' ' :: decimal l) := rfl
  rw [e]
  simp [hd]

theorem decimal_not_blank (v : Int) : ∀ c ∈ decimal v, decide (c = ' ') = false := by
  intro c hc
  have := decimal_not_comma v c hc
  by_contra hn
  have : c = ' ' := by simpa using hn
  subst this
  exact absurd (decimal_not_comma v _ hc) (by decide)

theorem splitAt1_labels (v : Int) (ls : List Int) : splitAt1 (· = ' ') (decimal v ++ ls.flatMap fun l => ' ' :: decimal l) = (v :: ls).map decimal := by
  induction ls generalizing v with
  | nil => rw [List.flatMap_nil, List.append_nil, splitAt1_self (decimal_not_blank v)]; rfl
  | cons l ls ih =>
    rw [List.flatMap_cons, List.cons_append, splitAt1_append (decimal_not_blank v) (by decide), ih]
    rfl

theorem readLabels_spec (ls : List Int) (hr : ∀ l ∈ ls, Int64Range l) (hlen : Int64Range ls.length) : readLabels (labelLine ls) = some ls := by
  have e : labelLine ls = 'l' :: 'a' :: 'b' :: 'e' :: 'l' :: 's' :: ' ' :: (decimal ls.length ++ ls.flatMap fun l => ' ' :: decimal l) := rfl
  have hlit : scanLit ['l', 'a', 'b', 'e', 'l', 's'] (labelLine ls) = some (' ' :: (decimal ls.length ++ ls.flatMap fun l => ' ' :: decimal l)) := by
    rw [e]; simp [scanLit]
  have hint := scanInt_decimal hlen (ls.flatMap fun l => ' ' :: decimal l) (by
    cases ls with
    | nil => simp
    | cons l ls => simp; decide)
  have hsp : splitAt1 (· = ' ') (labelLine ls) = ['l', 'a', 'b', 'e', 'l', 's'] :: ((ls.length : Int) :: ls).map decimal := by
    have : labelLine ls = ['l', 'a', 'b', 'e', 'l', 's'] ++ ' ' :: (decimal ls.length ++ ls.flatMap fun l => ' ' :: decimal l) := rfl
    rw [this, splitAt1_append (by decide) (by decide), splitAt1_labels]
  unfold readLabels
  simp only [hlit, Option.bind_some, scanBlank_cons_digit, hint, Option.elim]
  rw [if_neg (by omega), Int.toNat_natCast, hsp, mapM_eq_some (g := fun j => ls.getD j 0)]
  · congr 1
    apply List.ext_getElem
    · simp
    · intro i h1 h2; simp at h1; simp [h1]
  · intro j hj
    rw [List.mem_range] at hj
    rw [show j + 2 = (j + 1) + 1 from rfl, List.getElem?_cons_succ, List.map_cons, List.getElem?_cons_succ, List.getElem?_map, List.getElem?_eq_getElem hj]
    simp only [Option.map_some, Option.bind_some]
    rw [decimal_atoi (hr _ (List.getElem_mem hj))]
    simp [hj]

/-- `ParseEvidence` returns the labels of the first line, the definitions and the rows. -/
theorem C84_parseEvidence_partial {decls : List (Int × Int)} {rows : List (List Int)} {lines : List Str} (ls : List Int) (h : DataFile decls rows lines) (hne : rows ≠ [])
    (hlen : ∀ r ∈ rows, decls.length ≤ r.length) (hshort : ∀ l ∈ labelLine ls :: (decls.map declLine ++ lines), l.length < 65536)
    (hr : ∀ l ∈ ls, Int64Range l) (hls : Int64Range ls.length) :
    parseEvidence (labelLine ls ++ '\n' :: dataText decls lines) = some (decls, rows.map (fun r => lineInstance (r.take decls.length)), ls) := by
  have htext : labelLine ls ++ '\n' :: dataText decls lines = unlines (labelLine ls :: (decls.map declLine ++ lines)) := by
    unfold dataText unlines; simp
  have hscan : scanLines (labelLine ls ++ '\n' :: dataText decls lines) = labelLine ls :: (decls.map declLine ++ lines) := by
    rw [htext, scanLines_unlines, takeWhile_all' fun l hl => by simpa using hshort l hl]
    intro l hl
    rcases List.mem_cons.1 hl with rfl | hl
    · exact labelLine_chars ls
    · exact DataFile_chars h l hl
  unfold parseEvidence
  simp only [hscan, List.headD_cons, List.drop_succ_cons, List.drop_zero, readLabels_spec ls hr hls, Option.bind_some]
  cases lines with
  | nil => cases h.written; exact absurd rfl hne
  | cons line lines =>
    rw [readVars_file h, Option.bind_some]
    simp only [readLines_eq]
    rw [mapM_forall₂ (g := fun r => r.take decls.length) h.written fun a b ha hr => readLine_spec hr (h.rowRange a ha) (hlen a ha), Option.map_some, matrixToData_eq, List.map_map]
    rfl

/-- The hypotheses hold for a small file: two variables, two rows with different separators. -/
example : ∃ lines, DataFile [(0, 3), (1, 2)] [[2, 1], [0, -1, 7]] lines ∧ (∀ r ∈ [[2, 1], [0, -1, 7]], [((0 : Int), (3 : Int)), (1, 2)].length ≤ r.length) ∧
    ∀ l ∈ [((0 : Int), (3 : Int)), (1, 2)].map declLine ++ lines, l.length < 65536 := by
  refine ⟨["2 1".toList, "0, -1,7 ".toList], ⟨by simp, ?_, ?_, ?_⟩, by simp, ?_⟩
  · intro d hd
    simp at hd
    rcases hd with rfl | rfl <;> (refine ⟨⟨?_, ?_⟩, ⟨?_, ?_⟩⟩ <;> norm_num)
  · refine List.Forall₂.cons ?_ (List.Forall₂.cons ?_ List.Forall₂.nil)
    · exact WritesRow.cons 2 [' '] [1] _ (by simp) (by simp [IsSep]) (WritesRow.last 1 [] (by simp))
    · exact WritesRow.cons 0 [',', ' '] [-1, 7] _ (by simp) (by simp [IsSep]) (WritesRow.cons (-1) [','] [7] _ (by simp) (by simp [IsSep]) (WritesRow.last 7 [' '] (by simp [IsSep])))
  · intro r hr v hv
    simp at hr
    rcases hr with rfl | rfl <;> simp at hv
    · rcases hv with rfl | rfl <;> (constructor <;> norm_num)
    · rcases hv with rfl | rfl | rfl <;> (constructor <;> norm_num)
  · have : ([((0 : Int), (3 : Int)), (1, 2)].map declLine ++ ["2 1".toList, "0, -1,7 ".toList]).all (fun l => decide (l.length < 65536)) = true := by decide +kernel
    intro l hl
    simpa using List.all_eq_true.1 this l hl

end Gospn
