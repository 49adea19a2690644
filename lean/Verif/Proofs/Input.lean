/-
Lemmas about the readers of data files.
-/
import Verif.Model.Input
import Verif.Proofs.Text
import Verif.Proofs.Spn
import Verif.Proofs.ArgMax

namespace Gospn
open Spec
set_option linter.unusedSimpArgs false

theorem mapM_mem_some {α β : Type} {f : α → Option β} : ∀ {l : List α} {r : List β}, l.mapM f = some r → ∀ a ∈ l, ∃ b, f a = some b := by
  intro l
  induction l with
  | nil => intro r _ a ha; simp at ha
  | cons x l ih =>
    intro r h a ha
    rw [List.mapM_cons] at h
    cases hx : f x with
    | none => rw [hx] at h; cases h
    | some y =>
      rw [hx] at h
      cases hl : l.mapM f with
      | none => rw [hl] at h; cases h
      | some ys =>
        rcases List.mem_cons.1 ha with rfl | ha
        · exact ⟨y, hx⟩
        · exact ih hl a ha

theorem isComma_of_isSep {c : Char} (h : IsSep c) : isComma c = true := by
  rcases h with rfl | rfl | rfl <;> decide

theorem decimal_head (v : Int) : ∃ c t, decimal v = c :: t ∧ (isDec c = true ∨ c = '-') := by
  obtain ⟨c, t, ht⟩ := List.exists_cons_of_ne_nil (itoa_ne_nil v)
  exact ⟨c, t, by rw [← itoa_eq, ht], itoa_chars v c (by rw [ht]; simp)⟩

theorem not_isComma_of {c : Char} (h : isDec c = true ∨ c = '-') : isComma c = false := by
  rcases h with h | rfl
  · by_contra hn
    have := isComma_isDec c (by simpa using hn)
    rw [h] at this; cases this
  · decide

theorem decimal_not_comma (v : Int) : ∀ c ∈ decimal v, isComma c = false := by
  rw [← itoa_eq]
  exact fun c hc => not_isComma_of (itoa_chars v c hc)

theorem Spec.WritesRow.head {vs : List Int} {l : Str} (h : WritesRow vs l) : ∃ c t, l = c :: t ∧ (isDec c = true ∨ c = '-') := by
  cases h with
  | last v sep _ => obtain ⟨c, t, h1, h2⟩ := decimal_head v; exact ⟨c, t ++ sep, by rw [h1]; rfl, h2⟩
  | cons v sep vs l _ _ _ => obtain ⟨c, t, h1, h2⟩ := decimal_head v; exact ⟨c, t ++ (sep ++ l), by rw [h1]; rfl, h2⟩

/-- The pieces of a row: the numbers, and possibly an empty piece at the end. -/
theorem Spec.WritesRow.split {vs : List Int} {l : Str} (h : WritesRow vs l) : ∃ tl, splitRuns isComma l = vs.map decimal ++ tl ∧ (tl = [] ∨ tl = [[]]) := by
  induction h with
  | last v sep hs =>
    by_cases hne : sep = []
    · subst hne
      rw [List.append_nil, splitRuns_self (decimal_not_comma v)]
      exact ⟨[], rfl, Or.inl rfl⟩
    · have := splitRuns_append (decimal_not_comma v) hne (fun c hc => isComma_of_isSep (hs c hc)) [] (by simp)
      rw [List.append_nil] at this
      rw [this]
      exact ⟨[[]], rfl, Or.inr rfl⟩
  | cons v sep vs l hne hs hl ih =>
    obtain ⟨tl, ih, htl⟩ := ih
    obtain ⟨c, t, h1, h2⟩ := hl.head
    rw [splitRuns_append (decimal_not_comma v) hne (fun c hc => isComma_of_isSep (hs c hc)) l (by rw [h1]; simp [not_isComma_of h2]), ih]
    exact ⟨tl, rfl, htl⟩

theorem Spec.WritesRow.chars {vs : List Int} {l : Str} (h : WritesRow vs l) : '\n' ∉ l ∧ '\r' ∉ l := by
  have hd : ∀ v : Int, '\n' ∉ decimal v ∧ '\r' ∉ decimal v := by
    intro v
    constructor <;> intro hc <;> exact absurd (decimal_not_comma v _ hc) (by decide)
  have hs : ∀ sep : Str, (∀ c ∈ sep, IsSep c) → '\n' ∉ sep ∧ '\r' ∉ sep := by
    intro sep hs
    constructor <;> intro hc <;> rcases hs _ hc with h | h | h <;> exact absurd h (by decide)
  induction h with
  | last v sep h => simp [hd v, hs sep h]
  | cons v sep vs l _ h _ ih => simp [hd v, hs sep h, ih]

theorem decimal_atoi {v : Int} (h : Int64Range v) : atoi (decimal v) = some v := by
  rw [← itoa_eq]; exact atoi_itoa ((inInt64_iff v).2 h)

theorem row_piece {vs : List Int} {l : Str} (h : WritesRow vs l) (hr : ∀ v ∈ vs, Int64Range v) {j : Nat} (hj : j < vs.length) :
    ((splitRuns isComma l)[j]?).bind atoi = some vs[j] := by
  obtain ⟨tl, ht, -⟩ := h.split
  rw [ht, List.getElem?_append_left (by simpa using hj), List.getElem?_map, List.getElem?_eq_getElem hj]
  simp only [Option.map_some, Option.bind_some]
  exact decimal_atoi (hr _ (List.getElem_mem hj))

theorem readLine_spec {vs : List Int} {l : Str} (h : WritesRow vs l) (hr : ∀ v ∈ vs, Int64Range v) {n : Nat} (hn : n ≤ vs.length) :
    readLine n l = some (vs.take n) := by
  unfold readLine
  rw [mapM_eq_some (g := fun j => vs.getD j 0)]
  · congr 1
    apply List.ext_getElem
    · simp [hn]
    · intro i h1 h2
      simp at h1 h2
      simp [show i < vs.length by omega]
  · intro j hj
    have hj' : j < vs.length := by rw [List.mem_range] at hj; omega
    rw [row_piece h hr hj']
    simp [hj']

/-- A row with too few values. -/
theorem readLine_short {vs : List Int} {l : Str} (h : WritesRow vs l) {n : Nat} (hn : vs.length < n) : readLine n l = none := by
  unfold readLine
  cases hm : (List.range n).mapM fun j => ((splitRuns isComma l)[j]?).bind atoi with
  | none => rfl
  | some r =>
    exfalso
    obtain ⟨tl, ht, htl⟩ := h.split
    obtain ⟨b, hb⟩ := mapM_mem_some hm vs.length (List.mem_range.2 hn)
    rw [ht, List.getElem?_append_right (by simp)] at hb
    rcases htl with rfl | rfl
    · simp at hb
    · simp [atoi, takeSign, natOfStr] at hb

theorem readLabelled_spec {vs : List Int} {l : Str} (h : WritesRow vs l) (hr : ∀ v ∈ vs, Int64Range v) {n : Nat} (hn : n < vs.length) :
    readLabelled n l = some (vs.take n, vs.getD n 0) := by
  unfold readLabelled
  rw [readLine_spec h hr (by omega), Option.bind_some]
  have := row_piece h hr hn
  obtain ⟨t, ht, hat⟩ := Option.bind_eq_some_iff.1 this
  rw [ht, Option.map_some, hat]
  simp [hn]

/-- The rows are read one after the other. -/
theorem readLines_eq {α : Type} (f : Str → Option α) (line : Str) (ls : List Str) : readLines f line ls = (line :: ls).mapM f := by
  unfold readLines
  have key : ∀ (ls : List Str) (line : Str) (acc : List α),
      (ls.foldlM (fun (s : List α × Str) l => (f s.2).map fun r => (s.1 ++ [r], l)) (acc, line)).bind (fun s => (f s.2).map fun r => s.1 ++ [r]) =
        ((line :: ls).mapM f).map fun rs => acc ++ rs := by
    intro ls
    induction ls with
    | nil =>
      intro line acc
      simp only [List.foldlM_nil, List.mapM_cons, List.mapM_nil, Option.pure_def, Option.bind_eq_bind, Option.bind_some]
      cases f line <;> rfl
    | cons l ls ih =>
      intro line acc
      rw [List.foldlM_cons, List.mapM_cons]
      cases hf : f line with
      | none => rfl
      | some r =>
        simp only [Option.map_some, Option.bind_eq_bind, Option.bind_some]
        rw [ih]
        cases (l :: ls).mapM f <;> simp
  have := key ls line []
  rw [this]
  cases (line :: ls).mapM f <;> simp

theorem scanBlank_cons_digit {v : Int} {s : Str} : (scanBlank (' ' :: (decimal v ++ s))) = some (decimal v ++ s) := by
  obtain ⟨c, t, h1, h2⟩ := decimal_head v
  have hb : isBlank c = false := by
    rcases h2 with h | rfl
    · by_contra hn
      have := isBlank_isDec c (by simpa using hn)
      rw [h] at this; cases this
    · decide
  rw [scanBlank, if_pos (by decide), h1, List.cons_append, List.dropWhile_cons_of_neg (by simp [hb])]

theorem scanInt_decimal {v : Int} (h : Int64Range v) (s : Str) (hs : (s.head?).all (fun c => !isDec c) = true) : scanInt (decimal v ++ s) = some (v, s) := by
  rw [← itoa_eq]; exact scanInt_itoa ((inInt64_iff v).2 h) s hs

theorem scanVar_declLine {d : Int × Int} (h1 : Int64Range d.1) (h2 : Int64Range d.2) : scanVar (declLine d) = d := by
  unfold scanVar
  have e : declLine d = 'v' :: 'a' :: 'r' :: ' ' :: (decimal d.1 ++ (' ' :: decimal d.2)) := rfl
  have hlit : (scanLit ['v', 'a', 'r'] (declLine d)) = some (' ' :: (decimal d.1 ++ (' ' :: decimal d.2))) := by
    rw [e]; simp [scanLit]
  have hb2 := scanBlank_cons_digit (v := d.2) (s := [])
  rw [List.append_nil] at hb2
  have hi2 := scanInt_decimal h2 [] (by simp)
  rw [List.append_nil] at hi2
  have hi1 := scanInt_decimal h1 (' ' :: decimal d.2) (by simp; decide)
  rw [hlit, Option.bind_some, scanBlank_cons_digit]
  simp only [hi1, hb2, Option.bind_some, hi2]

theorem declLine_chars (d : Int × Int) : '\n' ∉ declLine d ∧ '\r' ∉ declLine d := by
  have hd : ∀ v : Int, '\n' ∉ decimal v ∧ '\r' ∉ decimal v := by
    intro v
    constructor <;> intro hc <;> exact absurd (decimal_not_comma v _ hc) (by decide)
  have e : declLine d = 'v' :: 'a' :: 'r' :: ' ' :: (decimal d.1 ++ (' ' :: decimal d.2)) := rfl
  rw [e]
  simp [hd d.1, hd d.2]

theorem putVariable_new {sc : List (Int × Int)} {d : Int × Int} (h : d.1 ∉ sc.map Prod.fst) : putVariable sc d = sc ++ [d] := by
  unfold putVariable
  congr 1
  rw [List.filter_eq_self]
  intro x hx
  simp only [ne_eq, decide_not, Bool.not_eq_true', decide_eq_false_iff_not]
  rintro e
  exact h (e ▸ List.mem_map_of_mem hx)

/-- Definitions are read up to the first line that is none. -/
theorem readVars_spec (rest : List Str) (ds : List (Int × Int)) (sc : List (Int × Int)) (line : Str) (hr : ∀ d ∈ ds, Int64Range d.1 ∧ Int64Range d.2)
    (hnd : ((sc ++ ds).map Prod.fst).Nodup) :
    readVars (ds.map declLine ++ rest) sc line = readVars rest (sc ++ ds) ((line :: ds.map declLine).getLast (by simp)) := by
  induction ds generalizing sc line with
  | nil => simp
  | cons d ds ih =>
    rw [List.map_cons, List.cons_append]
    have e : declLine d = 'v' :: ('a' :: 'r' :: ' ' :: (decimal d.1 ++ (' ' :: decimal d.2))) := rfl
    have hd := hr d (by simp)
    have hsv := scanVar_declLine hd.1 hd.2
    have hnew : d.1 ∉ sc.map Prod.fst := by
      rw [List.map_append, List.map_cons, List.nodup_append] at hnd
      intro hm
      exact hnd.2.2 _ hm _ (by simp) rfl
    have hstep : readVars (declLine d :: (ds.map declLine ++ rest)) sc line = readVars (ds.map declLine ++ rest) (sc ++ [d]) (declLine d) := by
      conv_lhs => rw [e]
      rw [readVars, if_neg (by simp), ← e, hsv, putVariable_new hnew]
    rw [hstep, ih _ _ (fun x hx => hr x (by simp [hx])) (by simpa using hnd)]
    simp

/-- A row ends the definitions. -/
theorem readVars_row {vs : List Int} {l : Str} (h : WritesRow vs l) (ls : List Str) (sc : List (Int × Int)) (line : Str) :
    readVars (l :: ls) sc line = some (sc, l, ls) := by
  obtain ⟨c, t, h1, h2⟩ := h.head
  subst h1
  rw [readVars, if_pos]
  rintro rfl
  rcases h2 with h | h
  · exact absurd h (by decide)
  · exact absurd h (by decide)

theorem matrixToData_eq (M : List (List Int)) : matrixToData M = M.map lineInstance := by
  unfold matrixToData
  apply List.map_congr_left
  intro L _
  have key : ∀ (suf pre : List Int), (suf.zipIdx pre.length).foldl (fun (I : VarSet) (x : Int × Nat) => I.set x.2 x.1) (lineInstance pre) = lineInstance (pre ++ suf) := by
    intro suf
    induction suf with
    | nil => intro pre; simp
    | cons a suf ih =>
      intro pre
      rw [List.zipIdx_cons, List.foldl_cons]
      have : VarSet.set (lineInstance pre) (pre.length : Int) a = lineInstance (pre ++ [a]) := by
        funext k
        unfold VarSet.set lineInstance
        by_cases hk : k = (pre.length : Int)
        · subst hk; simp
        · rw [if_neg hk]
          by_cases h0 : 0 ≤ k
          · rw [if_pos h0, if_pos h0]
            rcases Nat.lt_or_ge k.toNat pre.length with h | h
            · rw [List.getElem?_append_left h]
            · rw [List.getElem?_eq_none h, List.getElem?_eq_none (by simp; omega)]
          · rw [if_neg h0, if_neg h0]
      have h2 := ih (pre ++ [a])
      rw [List.length_append, List.length_singleton] at h2
      simp only
      rw [this, h2, List.append_assoc]; rfl
  have := key L []
  rw [List.nil_append] at this
  rw [← this]
  congr 1
  funext k
  simp [VarSet.empty, lineInstance]

end Gospn
