/-
Lemmas about text: what is written in decimal is read back.
-/
import Verif.Model.Text
import Verif.Spec.Text
import Mathlib.Data.Nat.Digits.Lemmas
import Mathlib.Tactic.IntervalCases

namespace Gospn
open Spec
set_option linter.unusedSimpArgs false

theorem decDigit_toNat {d : Nat} (h : d < 10) : (decDigit d).toNat = 48 + d := by
  unfold decDigit
  interval_cases d <;> rfl

theorem isDec_decDigit {d : Nat} (h : d < 10) : isDec (decDigit d) = true := by
  unfold isDec; rw [decDigit_toNat h]; simp; omega

theorem natStr_ne_nil (n : Nat) : natStr n ≠ [] := by
  unfold natStr
  split
  · simp
  · rename_i h
    simp [Nat.digits_ne_nil_iff_ne_zero.2 h]

theorem natStr_isDec (n : Nat) : ∀ c ∈ natStr n, isDec c = true := by
  unfold natStr
  split
  · intro c hc; simp at hc; subst hc; rfl
  · intro c hc
    simp only [List.mem_reverse, List.mem_map] at hc
    obtain ⟨d, hd, rfl⟩ := hc
    exact isDec_decDigit (Nat.digits_lt_base (by omega) hd)

theorem natOfStr_natStr (n : Nat) : natOfStr (natStr n) = some n := by
  unfold natOfStr
  rw [if_neg (natStr_ne_nil n)]
  unfold natStr
  split
  · rename_i h; subst h; rfl
  · have key : ∀ l : List Nat, (∀ d ∈ l, d < 10) →
        ((l.map decDigit).reverse).foldlM (fun a c => if isDec c then some (a * 10 + (c.toNat - 48)) else none) 0 = some (Nat.ofDigits 10 l) := by
      intro l
      induction l with
      | nil => intro _; rfl
      | cons d l ih =>
        intro hl
        have hd := hl d (by simp)
        rw [List.map_cons, List.reverse_cons, List.foldlM_append, ih fun x hx => hl x (by simp [hx])]
        simp only [Option.bind_eq_bind, Option.bind_some, List.foldlM_cons, List.foldlM_nil, isDec_decDigit hd, if_true, decDigit_toNat hd, Nat.ofDigits_cons]
        simp only [Option.pure_def, Option.bind_some]
        congr 1
        omega
    rw [key _ fun d hd => Nat.digits_lt_base (by omega) hd, Nat.ofDigits_digits]

theorem isDec_ne {c d : Char} (h : isDec c = true) (hd : isDec d = false) : c ≠ d := by
  rintro rfl; rw [h] at hd; cases hd

theorem takeSign_itoa (v : Int) (s : Str) : takeSign (itoa v ++ s) = (decide (v < 0), natStr v.natAbs ++ s) := by
  unfold itoa
  split
  · rename_i h; simp [takeSign, h]
  · rename_i h
    obtain ⟨c, t, ht⟩ := List.exists_cons_of_ne_nil (natStr_ne_nil v.natAbs)
    have hc := natStr_isDec v.natAbs c (by rw [ht]; simp)
    rw [ht, List.cons_append]
    simp [takeSign, isDec_ne hc (show isDec '-' = false by decide), isDec_ne hc (show isDec '+' = false by decide), h]

theorem signedOf_itoa {v : Int} (h : inInt64 v = true) : signedOf (decide (v < 0)) v.natAbs = some v := by
  unfold signedOf
  have : (if decide (v < 0) = true then -((v.natAbs : Nat) : Int) else (v.natAbs : Int)) = v := by
    by_cases hv : v < 0
    · rw [if_pos (by simpa using hv)]; omega
    · rw [if_neg (by simpa using hv)]; omega
  simp only [this, h, if_true]

/-- strconv.Atoi reads what %d writes. -/
theorem atoi_itoa {v : Int} (h : inInt64 v = true) : atoi (itoa v) = some v := by
  unfold atoi
  have := takeSign_itoa v []
  rw [List.append_nil, List.append_nil] at this
  rw [this]
  simp only [natOfStr_natStr, Option.bind_some, signedOf_itoa h]

theorem itoa_ne_nil (v : Int) : itoa v ≠ [] := by
  unfold itoa
  split
  · simp
  · exact natStr_ne_nil _

theorem itoa_chars (v : Int) : ∀ c ∈ itoa v, isDec c = true ∨ c = '-' := by
  unfold itoa
  split
  · intro c hc
    rcases List.mem_cons.1 hc with h | h
    · exact Or.inr h
    · exact Or.inl (natStr_isDec _ c h)
  · exact fun c hc => Or.inl (natStr_isDec _ c hc)

theorem itoa_not {v : Int} {p : Char → Bool} (hp : p '-' = false) (hd : ∀ c, p c = true → isDec c = false) : ∀ c ∈ itoa v, p c = false := by
  intro c hc
  rcases itoa_chars v c hc with h | h
  · by_contra hn
    have := hd c (by simpa using hn)
    rw [h] at this; cases this
  · subst h; exact hp

theorem isComma_isDec (c : Char) (h : isComma c = true) : isDec c = false := by
  simp only [isComma, Bool.or_eq_true, decide_eq_true_eq] at h
  rcases h with (((((h | h) | h) | h) | h) | h) <;> subst h <;> decide

theorem isBlank_isDec (c : Char) (h : isBlank c = true) : isDec c = false := by
  simp only [isBlank, Bool.or_eq_true, decide_eq_true_eq] at h
  rcases h with (((((h | h) | h) | h) | h) | h) <;> subst h <;> decide

/-- %d reads a number that is followed by something else than a digit. -/
theorem scanInt_itoa {v : Int} (h : inInt64 v = true) (s : Str) (hs : (s.head?).all (fun c => !isDec c) = true) : scanInt (itoa v ++ s) = some (v, s) := by
  unfold scanInt
  have hdrop : (itoa v ++ s).dropWhile isBlank = itoa v ++ s := by
    obtain ⟨c, t, ht⟩ := List.exists_cons_of_ne_nil (itoa_ne_nil v)
    have hc := itoa_not (v := v) (p := isBlank) (by decide) isBlank_isDec c (by rw [ht]; simp)
    rw [ht, List.cons_append, List.dropWhile_cons_of_neg (by simp [hc])]
  rw [hdrop, takeSign_itoa]
  have htake : (natStr v.natAbs ++ s).takeWhile isDec = natStr v.natAbs := by
    rw [List.takeWhile_append_of_pos (natStr_isDec _)]
    cases s with
    | nil => simp
    | cons c s => simp at hs; simp [hs]
  have hdropd : (natStr v.natAbs ++ s).dropWhile isDec = s := by
    rw [List.dropWhile_append_of_pos (natStr_isDec _)]
    cases s with
    | nil => simp
    | cons c s => simp at hs; simp [hs]
  simp only [htake, hdropd, natOfStr_natStr, Option.bind_some, signedOf_itoa h, Option.map_some]

theorem splitAt1_ne_nil (p : Char → Bool) (s : Str) : splitAt1 p s ≠ [] := by
  cases s with
  | nil => simp [splitAt1]
  | cons c s =>
    unfold splitAt1
    split
    · simp
    · cases splitAt1 p s <;> simp [consFirst]

theorem splitRuns_ne_nil (p : Char → Bool) : ∀ s : Str, splitRuns p s ≠ [] := by
  intro s
  induction s with
  | nil => simp [splitRuns]
  | cons c s ih =>
    unfold splitRuns
    split
    · split
      · exact ih
      · simp
    · cases splitRuns p s <;> simp [consFirst]

/-- A piece without separators that is followed by one. -/
theorem splitAt1_append {p : Char → Bool} {t : Str} (ht : ∀ c ∈ t, p c = false) {c : Char} (hc : p c = true) (s : Str) :
    splitAt1 p (t ++ c :: s) = t :: splitAt1 p s := by
  induction t with
  | nil => simp [splitAt1, hc]
  | cons a t ih =>
    have ha := ht a (by simp)
    rw [List.cons_append, splitAt1, if_neg (by simp [ha]), ih fun x hx => ht x (by simp [hx])]
    rfl

theorem splitAt1_self {p : Char → Bool} {t : Str} (ht : ∀ c ∈ t, p c = false) : splitAt1 p t = [t] := by
  induction t with
  | nil => rfl
  | cons a t ih =>
    have ha := ht a (by simp)
    rw [splitAt1, if_neg (by simp [ha]), ih fun x hx => ht x (by simp [hx])]
    rfl

theorem splitRuns_self {p : Char → Bool} {t : Str} (ht : ∀ c ∈ t, p c = false) : splitRuns p t = [t] := by
  induction t with
  | nil => rfl
  | cons a t ih =>
    have ha := ht a (by simp)
    rw [splitRuns, if_neg (by simp [ha]), ih fun x hx => ht x (by simp [hx])]
    rfl

/-- A piece without separators that is followed by a run of separators. -/
theorem splitRuns_append {p : Char → Bool} {t : Str} (ht : ∀ c ∈ t, p c = false) {sep : Str} (hne : sep ≠ []) (hsep : ∀ c ∈ sep, p c = true) (s : Str)
    (hs : (s.head?).any p = false) : splitRuns p (t ++ (sep ++ s)) = t :: splitRuns p s := by
  induction t with
  | nil =>
    rw [List.nil_append]
    induction sep with
    | nil => exact absurd rfl hne
    | cons c sep ih =>
      have hc := hsep c (by simp)
      rw [List.cons_append, splitRuns, if_pos hc]
      cases sep with
      | nil => rw [List.nil_append, if_neg (by simp [hs])]
      | cons d sep =>
        have hd := hsep d (by simp)
        rw [if_pos (by simp [hd])]
        exact ih (by simp) fun x hx => hsep x (by simp [hx])
  | cons a t ih =>
    have ha := ht a (by simp)
    rw [List.cons_append, splitRuns, if_neg (by simp [ha]), ih fun x hx => ht x (by simp [hx])]
    rfl

theorem splitAt1_unlines {ls : List Str} (h : ∀ l ∈ ls, '\n' ∉ l) : splitAt1 (· = '\n') (unlines ls) = ls ++ [[]] := by
  induction ls with
  | nil => rfl
  | cons l ls ih =>
    have hl := h l (by simp)
    rw [unlines, List.flatMap_cons, List.append_assoc, List.singleton_append]
    rw [splitAt1_append (fun c hc => by simp; rintro rfl; exact hl hc) (by simp)]
    have := ih fun x hx => h x (by simp [hx])
    rw [unlines] at this
    rw [this]; rfl

/-- The scanner delivers the lines up to the first one that is too long. -/
theorem scanLines_unlines {ls : List Str} (h : ∀ l ∈ ls, '\n' ∉ l ∧ '\r' ∉ l) : scanLines (unlines ls) = ls.takeWhile fun l => l.length < 65536 := by
  unfold scanLines
  simp only
  rw [splitAt1_unlines fun l hl => (h l hl).1]
  rw [if_pos (by simp), List.dropLast_concat]
  conv_rhs => rw [← List.map_id (List.takeWhile _ ls)]
  apply List.map_congr_left
  intro l hl
  have hl' := (h l (List.takeWhile_sublist _ |>.subset hl)).2
  unfold dropCR
  rw [if_neg (fun e => hl' (List.mem_of_getLast? e))]
  rfl

/-! ### Decimal notation -/

theorem decDigit_eq {d : Nat} (h : d < 10) : decDigit d = d.digitChar := by
  unfold decDigit
  interval_cases d <;> rfl

theorem natStr_eq (n : Nat) : natStr n = Nat.toDigits 10 n := by
  induction n using Nat.strong_induction_on with
  | _ n ih =>
    rw [Nat.toDigits_eq_if (by omega)]
    by_cases h : n < 10
    · rw [if_pos h]
      unfold natStr
      split
      · rename_i h0; subst h0; rfl
      · rename_i h0
        rw [Nat.digits_of_lt 10 n h0 h]
        simp [decDigit_eq h]
    · rw [if_neg h, ← ih (n / 10) (by omega)]
      unfold natStr
      rw [if_neg (by omega), if_neg (by omega), Nat.digits_def' (by omega) (by omega)]
      simp [decDigit_eq (Nat.mod_lt n (by omega : 10 > 0))]

/-- %d writes decimal notation. -/
theorem itoa_eq (v : Int) : itoa v = decimal v := by
  unfold itoa decimal
  rw [Int.toString_eq_repr, Int.repr_eq_if]
  by_cases h : v < 0
  · rw [if_pos h, if_neg (by omega), natStr_eq]
    simp only [String.toList_append, Nat.toList_repr]
    have : (-v).toNat = v.natAbs := by omega
    rw [this]
    rfl
  · rw [if_neg h, if_pos (by omega), natStr_eq, Nat.toList_repr]
    congr 1
    omega

theorem inInt64_iff (v : Int) : inInt64 v = true ↔ Int64Range v := by
  unfold inInt64 Int64Range
  simp only [Bool.and_eq_true, decide_eq_true_eq]
  omega

end Gospn
