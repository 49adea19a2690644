import Verif.Model.Folder
import Verif.Spec.Folder
import Verif.Props.PartitionInput
import Mathlib.Data.Nat.Digits.Lemmas
import Mathlib.Tactic.Linarith
set_option linter.unusedSectionVars false
set_option linter.unusedSimpArgs false
/-
Lemmas about folders of images.
-/
namespace Gospn
open Spec

/-! ### The subdirectories -/

/-- Whether an entry is removed. -/
def dropsEntry (e : DirEntry) : Bool := decide (e.name = ['c', 'o', 'm', 'p', 'i', 'l', 'e', 'd'] ∨ e.isDir = false)

theorem markEntries_eq (sub : List DirEntry) :
    markEntries sub = (((sub.zipIdx.filter fun x => dropsEntry x.1).map Prod.snd).zipIdx).map fun x => (x.1 : Int) - (x.2 : Int) := by
  unfold markEntries
  have key : ∀ (sub : List DirEntry) (b : Nat) (ms : List Int) (c : Int), (ms = [] ∧ c = 1 ∨ (ms.length : Int) = c ∧ ms ≠ []) →
      ((sub.zipIdx b).foldl (fun (s : List Int × Int) (x : DirEntry × Nat) =>
        if x.1.name = ['c', 'o', 'm', 'p', 'i', 'l', 'e', 'd'] ∨ x.1.isDir = false then
          (if 0 < s.1.length then (s.1 ++ [(x.2 : Int) - s.2], s.2 + 1) else (s.1 ++ [(x.2 : Int)], s.2))
        else s) (ms, c)).1 =
      ms ++ ((((sub.zipIdx b).filter fun x => dropsEntry x.1).map Prod.snd).zipIdx ms.length).map fun x => (x.1 : Int) - (x.2 : Int) := by
    intro sub
    induction sub with
    | nil => intro b ms c _; simp
    | cons e sub ih =>
      intro b ms c h
      rw [List.zipIdx_cons, List.foldl_cons]
      by_cases he : e.name = ['c', 'o', 'm', 'p', 'i', 'l', 'e', 'd'] ∨ e.isDir = false
      · rw [if_pos he, List.filter_cons_of_pos (by simpa [dropsEntry] using he)]
        rcases h with ⟨rfl, rfl⟩ | ⟨h1, h2⟩
        · rw [if_neg (by simp), ih _ _ _ (Or.inr (by simp))]
          simp
        · rw [if_pos (List.length_pos_iff.2 h2), ih _ _ _ (Or.inr ⟨by simp; omega, by simp⟩)]
          simp [h1]
      · rw [if_neg he, List.filter_cons_of_neg (by simpa [dropsEntry] using he), ih _ _ _ h]
  simpa using key sub 0 [] 1 (Or.inl ⟨rfl, rfl⟩)

theorem removeMarked_eq (sub : List DirEntry) : removeMarked sub = some (sub.filter fun e => !dropsEntry e) := by
  unfold removeMarked
  set bads := (sub.zipIdx.filter fun x => dropsEntry x.1).map Prod.snd with hb
  have hmem : ∀ i, i ∈ bads ↔ ∃ e, sub[i]? = some e ∧ dropsEntry e = true := by
    intro i
    rw [hb]
    simp only [List.mem_map, List.mem_filter]
    constructor
    · rintro ⟨⟨e, j⟩, ⟨h1, h2⟩, rfl⟩
      exact ⟨e, (List.mem_zipIdx_iff_getElem?.1 h1), h2⟩
    · rintro ⟨e, h1, h2⟩
      exact ⟨(e, i), ⟨List.mem_zipIdx_iff_getElem?.2 h1, h2⟩, rfl⟩
  have hpw : bads.Pairwise (· < ·) := by
    have h1 : (sub.zipIdx.map Prod.snd).Pairwise (· < ·) := by
      rw [List.zipIdx_map_snd]
      exact List.pairwise_lt_range'
    have h2 : bads.Sublist (sub.zipIdx.map Prod.snd) := (List.filter_sublist).map _
    exact h1.sublist h2
  have hd := deleteRows_spec sub bads hpw (by
    intro d hd
    obtain ⟨e, h1, -⟩ := (hmem d).1 hd
    exact (List.getElem?_eq_some_iff.1 h1).1)
  rw [markEntries_eq, ← hb, List.foldlM_map]
  have e1 : (bads.zipIdx.foldlM (fun (l : List DirEntry) (x : Nat × Nat) =>
      if 0 ≤ (x.1 : Int) - (x.2 : Int) ∧ (x.1 : Int) - (x.2 : Int) < l.length then some (l.eraseIdx ((x.1 : Int) - (x.2 : Int)).toNat) else none) sub) = deleteRows sub bads := by
    unfold deleteRows
    congr 1
    funext l x
    by_cases h : x.2 ≤ x.1 ∧ x.1 - x.2 < l.length
    · rw [if_pos h, if_pos (by omega)]
      congr 2
      omega
    · rw [if_neg h, if_neg (by omega)]
  rw [e1, hd]
  congr 1
  have e2 : (sub.zipIdx.filter fun x => decide (x.2 ∉ bads)) = sub.zipIdx.filter fun x => !dropsEntry x.1 := by
    apply List.filter_congr
    rintro ⟨e, i⟩ hx
    have hi := List.mem_zipIdx_iff_getElem?.1 hx
    have : i ∈ bads ↔ dropsEntry e = true := by
      rw [hmem]
      constructor
      · rintro ⟨e', h1, h2⟩
        rw [hi] at h1
        cases h1
        exact h2
      · intro h; exact ⟨e, hi, h⟩
    cases hde : dropsEntry e <;> simp [this, hde]
  rw [e2]
  have e3 := List.filter_map (f := (Prod.fst : DirEntry × Nat → DirEntry)) (p := fun e => !dropsEntry e) (l := sub.zipIdx)
  rw [List.zipIdx_map_fst] at e3
  exact e3.symm

/-! ### Lines -/

theorem splitAt1_joinLines {ls : List Str} (hne : ls ≠ []) (h : ∀ l ∈ ls, '\n' ∉ l) : splitAt1 (· = '\n') (joinLines ls) = ls := by
  induction ls with
  | nil => exact absurd rfl hne
  | cons l ls ih =>
    have hl : ∀ c ∈ l, decide (c = '\n') = false := by
      intro c hc
      simp
      rintro rfl
      exact h l (by simp) hc
    cases ls with
    | nil => exact splitAt1_self hl
    | cons l' ls => rw [joinLines, splitAt1_append hl (by simp), ih (by simp) fun x hx => h x (by simp [hx])]

theorem scanLines_joinLines {ls : List Str} (hne : ls ≠ []) (h : ∀ l ∈ ls, '\n' ∉ l ∧ '\r' ∉ l) (hs : ∀ l ∈ ls, l.length < 65536) :
    scanLines (joinLines ls) = if ls.getLast? = some [] then ls.dropLast else ls := by
  unfold scanLines
  simp only
  rw [splitAt1_joinLines hne fun l hl => (h l hl).1]
  have hsub : ∀ l ∈ (if ls.getLast? = some [] then ls.dropLast else ls), l ∈ ls := by
    intro l hl
    split at hl
    · exact List.dropLast_subset _ hl
    · exact hl
  rw [takeWhile_all' fun l hl => by simpa using hs l (hsub l hl)]
  conv_rhs => rw [← List.map_id (if ls.getLast? = some [] then ls.dropLast else ls)]
  apply List.map_congr_left
  intro l hl
  unfold dropCR
  rw [if_neg fun e => (h l (hsub l hl)).2 (List.mem_of_getLast? e)]
  rfl

/-- An empty last line does not matter after a non-empty one. -/
theorem scanLines_head {hd : List Str} {x : Str} {body : List Str} (hx : x ≠ []) (h : ∀ l ∈ hd ++ x :: body, '\n' ∉ l ∧ '\r' ∉ l)
    (hs : ∀ l ∈ hd ++ x :: body, l.length < 65536) :
    ∃ body', scanLines (joinLines (hd ++ x :: body)) = hd ++ x :: body' ∧ (body = body' ∨ body = body' ++ [[]]) := by
  rw [scanLines_joinLines (by simp) h hs]
  rcases List.eq_nil_or_concat' body with rfl | ⟨b, y, rfl⟩
  · exact ⟨[], by rw [if_neg (by simp [hx])], Or.inl rfl⟩
  · have e : hd ++ x :: (b ++ [y]) = (hd ++ x :: b) ++ [y] := by simp
    rw [e, List.getLast?_concat, List.dropLast_concat]
    by_cases hy : y = []
    · subst hy
      exact ⟨b, by simp, Or.inr rfl⟩
    · exact ⟨b ++ [y], by simp [hy], Or.inl rfl⟩

theorem decimal_chars (v : Int) : '\n' ∉ decimal v ∧ '\r' ∉ decimal v := by
  constructor <;> intro hc <;> exact absurd (decimal_not_comma v _ hc) (by decide)

theorem decimal_ne_nil (v : Int) : decimal v ≠ [] := by rw [← itoa_eq]; exact itoa_ne_nil v

theorem decimal_length {v : Int} (h : Int64Range v) : (decimal v).length ≤ 20 := by
  rw [← itoa_eq]
  have hn : (natStr v.natAbs).length ≤ 19 := by
    unfold natStr
    split
    · simp
    · rw [List.length_reverse, List.length_map]
      have h2 : v.natAbs < 10 ^ 19 := by
        have := h.1; have := h.2
        omega
      exact (Nat.digits_length_le_iff (by norm_num) _).2 h2
  unfold itoa
  split
  · simp; omega
  · omega

/-! ### The pixels of a PGM image -/

/-- What is written for the pixels: each followed by a blank. -/
def pixelText (px : List Int) : Str := px.flatMap fun v => decimal v ++ [' ']

theorem splitAt1_blanks (n : Nat) (s : Str) : splitAt1 (· = ' ') (List.replicate n ' ' ++ s) = List.replicate n [] ++ splitAt1 (· = ' ') s := by
  induction n with
  | zero => rfl
  | succ n ih => rw [List.replicate_succ, List.cons_append, splitAt1, if_pos (by simp), ih]; rfl

theorem atoi_nil : atoi [] = none := by rfl

/-- What the code writes for a line. -/
def lineTokens (f : Str → Str) (line : Str) : Str := (splitAt1 (· = ' ') line).flatMap f

theorem blankRow_tokens {vs : List Int} {l : Str} (h : BlankRow vs l) (hr : ∀ v ∈ vs, Int64Range v) :
    (splitAt1 (· = ' ') l).flatMap (fun t => (atoi t).elim [] fun v => itoa v ++ [' ']) = pixelText vs := by
  have hrep : ∀ n : Nat, (List.replicate n ([] : Str)).flatMap (fun t => (atoi t).elim [] fun v => itoa v ++ [' ']) = [] := by
    intro n
    induction n with
    | zero => rfl
    | succ n ih => rw [List.replicate_succ, List.flatMap_cons, ih, atoi_nil]; rfl
  induction h with
  | done n =>
    have := splitAt1_blanks n []
    rw [List.append_nil] at this
    rw [this, List.flatMap_append, hrep]
    rfl
  | last n v =>
    rw [splitAt1_blanks, splitAt1_self (decimal_not_blank v), List.flatMap_append, hrep]
    simp [decimal_atoi (hr v (by simp)), pixelText, itoa_eq]
  | more n v vs l _ ih =>
    rw [splitAt1_blanks, splitAt1_append (decimal_not_blank v) (by simp), List.flatMap_append, hrep, List.flatMap_cons, ih fun x hx => hr x (by simp [hx])]
    simp [decimal_atoi (hr v (by simp)), pixelText, itoa_eq]

theorem tightRow_tokens {vs : List Int} {l : Str} (h : TightRow vs l) (hr : ∀ v ∈ vs, Int64Range v) :
    (splitAt1 (· = ' ') l).flatMap (fun t => itoa ((atoi t).getD 0) ++ [' ']) = pixelText vs := by
  induction h with
  | last v =>
    rw [splitAt1_self (decimal_not_blank v)]
    simp [decimal_atoi (hr v (by simp)), pixelText, itoa_eq]
  | more v vs l _ ih =>
    rw [splitAt1_append (decimal_not_blank v) (by simp), List.flatMap_cons, ih fun x hx => hr x (by simp [hx])]
    simp [decimal_atoi (hr v (by simp)), pixelText, itoa_eq]

theorem blankRow_chars {vs : List Int} {l : Str} (h : BlankRow vs l) : '\n' ∉ l ∧ '\r' ∉ l := by
  induction h with
  | done n => simp
  | last n v => simp [decimal_chars v]
  | more n v vs l _ ih => simp [decimal_chars v, ih]

theorem tightRow_chars {vs : List Int} {l : Str} (h : TightRow vs l) : '\n' ∉ l ∧ '\r' ∉ l := by
  induction h with
  | last v => exact decimal_chars v
  | more v vs l _ ih => simp [decimal_chars v, ih]

theorem tightRow_ne_nil {vs : List Int} {l : Str} (h : TightRow vs l) : l ≠ [] := by
  cases h with
  | last v => exact decimal_ne_nil v
  | more v vs l _ => simp

theorem forall₂_mem_right {α β : Type} {R : α → β → Prop} {as : List α} {bs : List β} (h : List.Forall₂ R as bs) : ∀ b ∈ bs, ∃ a ∈ as, R a b := by
  induction h with
  | nil => simp
  | cons h _ ih =>
    intro b hb
    rcases List.mem_cons.1 hb with rfl | hb
    · exact ⟨_, by simp, h⟩
    · obtain ⟨a, ha, hr⟩ := ih b hb
      exact ⟨a, by simp [ha], hr⟩

/-- Writing line by line is writing the pixels. -/
theorem flatMap_rows {R : List Int → Str → Prop} {f : Str → Str} {rows : List (List Int)} {body : List Str} (h : List.Forall₂ R rows body)
    (hf : ∀ r l, r ∈ rows → R r l → f l = pixelText r) : body.flatMap f = pixelText rows.flatten := by
  induction h with
  | nil => rfl
  | cons h _ ih =>
    rw [List.flatMap_cons, hf _ _ (by simp) h, ih fun r l hr h => hf r l (by simp [hr]) h]
    simp [pixelText]

theorem scanPair_spec {w h : Int} (hw : Int64Range w) (hh : Int64Range h) : scanPair (decimal w ++ ' ' :: decimal h) = (w, h) := by
  unfold scanPair
  rw [scanInt_decimal hw _ (by simp; decide)]
  simp only
  have := scanBlank_cons_digit (v := h) (s := [])
  rw [List.append_nil] at this
  rw [this, Option.bind_some]
  have := scanInt_decimal hh [] (by simp)
  rw [List.append_nil] at this
  rw [this]

theorem scanOne_spec {m : Int} (hm : Int64Range m) : scanOne (decimal m) = m := by
  unfold scanOne
  have := scanInt_decimal hm [] (by simp)
  rw [List.append_nil] at this
  rw [this]
  rfl

theorem header_chars (w h : Int) : '\n' ∉ decimal w ++ ' ' :: decimal h ∧ '\r' ∉ decimal w ++ ' ' :: decimal h := by
  simp [decimal_chars]

/-- The lines of an image that the scanner delivers. -/
theorem PgmText_scan {R : List Int → Str → Prop} (hR : ∀ vs l, R vs l → '\n' ∉ l ∧ '\r' ∉ l) {w h max : Int} {px : List Int} {text : Str} (H : PgmText R w h max px text) :
    ∃ (rows : List (List Int)) (body body' : List Str), List.Forall₂ R rows body ∧ rows.flatten = px ∧ (body = body' ∨ body = body' ++ [[]]) ∧
      scanLines text = "P2".toList :: (decimal w ++ ' ' :: decimal h) :: decimal max :: body' := by
  obtain ⟨rows, body, h1, h2, h3, h4⟩ := H.lines
  have hc : ∀ l ∈ ["P2".toList, decimal w ++ ' ' :: decimal h] ++ decimal max :: body, '\n' ∉ l ∧ '\r' ∉ l := by
    intro l hl
    simp only [List.cons_append, List.nil_append, List.mem_cons] at hl
    rcases hl with rfl | rfl | rfl | hl
    · decide
    · exact header_chars w h
    · exact decimal_chars max
    · obtain ⟨a, -, ha⟩ := forall₂_mem_right h1 l hl
      exact hR _ _ ha
  have hs : ∀ l ∈ ["P2".toList, decimal w ++ ' ' :: decimal h] ++ decimal max :: body, l.length < 65536 := by
    intro l hl
    simp only [List.cons_append, List.nil_append, List.mem_cons] at hl
    rcases hl with rfl | rfl | rfl | hl
    · decide
    · have := decimal_length H.range.1; have := decimal_length H.range.2.1
      simp only [List.length_append, List.length_cons]; omega
    · have := decimal_length H.range.2.2.1; omega
    · exact h3 l hl
  obtain ⟨body', h5, h6⟩ := scanLines_head (decimal_ne_nil max) hc hs
  exact ⟨rows, body, body', h1, h2, h6, by rw [h4]; exact h5⟩

theorem pgmHeader_spec {R : List Int → Str → Prop} (hR : ∀ vs l, R vs l → '\n' ∉ l ∧ '\r' ∉ l) {w h max : Int} {px : List Int} {text : Str}
    (H : PgmText R w h max px text) : pgmHeader text = (w, h, max) := by
  obtain ⟨rows, body, body', -, -, -, h4⟩ := PgmText_scan hR H
  unfold pgmHeader
  rw [h4]
  simp only [List.getD_cons_succ, List.getD_cons_zero, scanPair_spec H.range.1 H.range.2.1, scanOne_spec H.range.2.2.1]

theorem pgmBody_spec {w h max : Int} {px : List Int} {text : Str} (H : PgmFile w h max px text) : pgmBody text = pixelText px := by
  obtain ⟨rows, body, body', h1, h2, h3, h4⟩ := PgmText_scan (fun _ _ => blankRow_chars) H
  unfold pgmBody
  rw [h4, List.drop_succ_cons, List.drop_succ_cons, List.drop_succ_cons, List.drop_zero]
  have hall := flatMap_rows (f := fun line => (splitAt1 (· = ' ') line).flatMap fun t => (atoi t).elim [] fun v => itoa v ++ [' ']) h1 fun r l hr h =>
    blankRow_tokens h fun v hv => H.range.2.2.2 v (by rw [← h2]; exact List.mem_flatten.2 ⟨r, hr, hv⟩)
  rw [h2] at hall
  rw [← hall]
  rcases h3 with rfl | rfl
  · rfl
  · rw [List.flatMap_append]
    simp [splitAt1, atoi_nil]

theorem pgmEvidenceBody_spec {w h max : Int} {px : List Int} {text : Str} (H : PgmText TightRow w h max px text) : pgmEvidenceBody text = pixelText px := by
  obtain ⟨rows, body, body', h1, h2, h3, h4⟩ := PgmText_scan (fun _ _ => tightRow_chars) H
  unfold pgmEvidenceBody
  rw [h4, List.drop_succ_cons, List.drop_succ_cons, List.drop_succ_cons, List.drop_zero]
  have hall := flatMap_rows (f := fun line => (splitAt1 (· = ' ') line).flatMap fun t => itoa ((atoi t).getD 0) ++ [' ']) h1 fun r l hr h =>
    tightRow_tokens h fun v hv => H.range.2.2.2 v (by rw [← h2]; exact List.mem_flatten.2 ⟨r, hr, hv⟩)
  rw [h2] at hall
  rw [← hall]
  rcases h3 with rfl | rfl
  · rfl
  · exfalso
    obtain ⟨a, -, ha⟩ := forall₂_mem_right h1 [] (by simp)
    exact tightRow_ne_nil ha rfl

/-! ### Rows -/

theorem tightLine_append (px : List Int) (c : Int) : tightLine (px ++ [c]) = pixelText px ++ decimal c := by
  induction px with
  | nil => rfl
  | cons v px ih =>
    have e : pixelText (v :: px) = decimal v ++ ' ' :: pixelText px := by simp [pixelText]
    rw [e]
    cases px with
    | nil => simp [tightLine, pixelText]
    | cons v' px => rw [List.cons_append, List.cons_append, tightLine, ← List.cons_append, ih]; simp

theorem writesRow_tight {vs : List Int} (h : vs ≠ []) : WritesRow vs (tightLine vs) := by
  induction vs with
  | nil => exact absurd rfl h
  | cons v vs ih =>
    cases vs with
    | nil => simpa [tightLine] using WritesRow.last v [] (by simp)
    | cons v' vs => exact WritesRow.cons v [' '] (v' :: vs) _ (by simp) (by simp [IsSep]) (ih (by simp))

/-- The pixels, each followed by a blank. -/
theorem writesRow_pixels {vs : List Int} (h : vs ≠ []) : WritesRow vs (pixelText vs) := by
  induction vs with
  | nil => exact absurd rfl h
  | cons v vs ih =>
    have e : pixelText (v :: vs) = decimal v ++ ([' '] ++ pixelText vs) := by simp [pixelText]
    rw [e]
    cases vs with
    | nil => simpa [pixelText] using WritesRow.last v [' '] (by simp [IsSep])
    | cons v' vs => exact WritesRow.cons v [' '] (v' :: vs) _ (by simp) (by simp [IsSep]) (ih (by simp))

theorem pixelText_length (px : List Int) : 2 * px.length ≤ (pixelText px).length := by
  induction px with
  | nil => simp
  | cons v px ih =>
    have e : pixelText (v :: px) = decimal v ++ ' ' :: pixelText px := by simp [pixelText]
    have := List.length_pos_iff.2 (decimal_ne_nil v)
    rw [e, List.length_append, List.length_cons, List.length_cons]
    omega

end Gospn
