/-
Slices of predictions that share no spare capacity.
-/
import Verif.Spec.Score
import Verif.Proofs.Data

set_option linter.unusedSectionVars false
set_option linter.unusedSimpArgs false

namespace Gospn
open Spec

/-- The slice lies within an array. -/
def InBounds (A : Arrays) : PSlice → Prop
  | none => True
  | some (a, n) => ∃ arr, A[a]? = some arr ∧ n ≤ arr.length

/-- No spare capacity. -/
def Full (A : Arrays) (s : PSlice) : Prop := (readSlice A s).length = sliceCap A s

/-- The slices use the same array. -/
def Shares : PSlice → PSlice → Prop
  | some (a, _), some (b, _) => a = b
  | _, _ => False

theorem readSlice_length {A : Arrays} {a n : Nat} (h : InBounds A (some (a, n))) : (readSlice A (some (a, n))).length = n := by
  obtain ⟨arr, h1, h2⟩ := h
  simp [readSlice, h1, h2]

/-- What `append` does. -/
theorem goAppend_spec (grow : Nat → Nat → Nat) {A : Arrays} {s : PSlice} (hs : InBounds A s) (xs : List Pair) :
    readSlice (goAppend grow A s xs).1 (goAppend grow A s xs).2 = readSlice A s ++ xs ∧ InBounds (goAppend grow A s xs).1 (goAppend grow A s xs).2 ∧
    (∀ t, InBounds A t → InBounds (goAppend grow A s xs).1 t ∧ sliceCap (goAppend grow A s xs).1 t = sliceCap A t) ∧
    (∀ t, InBounds A t → (¬ Shares s t ∨ Full A s ∨ (readSlice A t).length ≤ (readSlice A s).length) → readSlice (goAppend grow A s xs).1 t = readSlice A t) ∧
    ((∀ t, InBounds A t → ¬ Shares t (goAppend grow A s xs).2) ∨
      (∀ t, Shares (goAppend grow A s xs).2 t ↔ Shares s t) ∧ (Full A s → xs = [] ∧ (goAppend grow A s xs).2 = s)) := by
  cases s with
  | none =>
    by_cases hx : xs = []
    · subst hx
      simp only [goAppend, if_true]
      refine ⟨by simp [readSlice], trivial, fun t ht => ⟨ht, trivial⟩, fun _ _ _ => trivial, Or.inl fun t ht => ?_⟩
      cases t <;> simp [Shares]
    · simp only [goAppend, if_neg hx]
      have hget : ∀ b < A.length, (A ++ [xs ++ List.replicate (grow 0 xs.length - xs.length) (⟨0, 0⟩ : Pair)])[b]? = A[b]? := fun b hb => List.getElem?_append_left hb
      have hlt : ∀ b n, InBounds A (some (b, n)) → b < A.length := by
        rintro b n ⟨arr, h, _⟩
        exact (List.getElem?_eq_some_iff.1 h).1
      refine ⟨?_, ?_, ?_, ?_, ?_⟩
      · simp [readSlice]
      · exact ⟨_, List.getElem?_concat_length .., by simp⟩
      · rintro (_ | ⟨b, n⟩) ht
        · exact ⟨trivial, rfl⟩
        · have := hget b (hlt b n ht)
          obtain ⟨arr, h1, h2⟩ := ht
          exact ⟨⟨arr, by rw [this, h1], h2⟩, by simp only [sliceCap, this]⟩
      · rintro (_ | ⟨b, n⟩) ht _
        · rfl
        · simp only [readSlice, hget b (hlt b n ht)]
      · refine Or.inl ?_
        rintro (_ | ⟨b, n⟩) ht hs
        · exact hs
        · have := hlt b n ht
          simp only [Shares] at hs
          omega
  | some an =>
    obtain ⟨a, n⟩ := an
    obtain ⟨arr, ha, hn⟩ := hs
    have halt : a < A.length := (List.getElem?_eq_some_iff.1 ha).1
    have hlt : ∀ b n, InBounds A (some (b, n)) → b < A.length := by
      rintro b n ⟨arr, h, _⟩
      exact (List.getElem?_eq_some_iff.1 h).1
    by_cases hc : n + xs.length ≤ arr.length
    · simp only [goAppend, ha, Option.getD_some, if_pos hc]
      have hself : (List.set A a (arr.take n ++ xs ++ arr.drop (n + xs.length)))[a]? = some (arr.take n ++ xs ++ arr.drop (n + xs.length)) := by
        rw [List.getElem?_set_self halt]
      have hother : ∀ b, b ≠ a → (List.set A a (arr.take n ++ xs ++ arr.drop (n + xs.length)))[b]? = A[b]? := fun b hb => List.getElem?_set_ne (Ne.symm hb)
      have hlen : (arr.take n ++ xs ++ arr.drop (n + xs.length)).length = arr.length := by simp; omega
      have htl : (arr.take n).length = n := by simp [hn]
      refine ⟨?_, ?_, ?_, ?_, ?_⟩
      · simp only [readSlice, hself, ha, Option.getD_some]
        rw [List.take_append_of_le_length (by simp [hn]), List.take_of_length_le (by simp [hn])]
      · exact ⟨_, hself, by rw [hlen]; exact hc⟩
      · rintro (_ | ⟨b, m⟩) ht
        · exact ⟨trivial, rfl⟩
        · by_cases hb : b = a
          · subst hb
            obtain ⟨arr', h1, h2⟩ := ht
            rw [ha] at h1
            cases h1
            exact ⟨⟨_, hself, by rw [hlen]; exact h2⟩, by simp only [sliceCap, hself, ha, Option.getD_some, hlen]⟩
          · obtain ⟨arr', h1, h2⟩ := ht
            exact ⟨⟨arr', by rw [hother b hb, h1], h2⟩, by simp only [sliceCap, hother b hb]⟩
      · rintro (_ | ⟨b, m⟩) ht h
        · rfl
        · by_cases hb : b = a
          · subst hb
            obtain ⟨arr', h1, h2⟩ := ht
            rw [ha] at h1
            cases h1
            simp only [readSlice, hself, ha, Option.getD_some]
            rcases h with h | h | h
            · exact absurd rfl h
            · simp only [Full, readSlice, sliceCap, ha, Option.getD_some, List.length_take] at h
              have : n = arr.length := by omega
              have hx : xs = [] := List.length_eq_zero_iff.1 (by omega)
              subst hx
              simp
            · simp only [readSlice, ha, Option.getD_some, List.length_take] at h
              have : m ≤ n := by omega
              rw [List.append_assoc, List.take_append_of_le_length (by rw [htl]; exact this), List.take_take, Nat.min_eq_left this]
          · simp only [readSlice, hother b hb]
      · refine Or.inr ⟨?_, ?_⟩
        · rintro (_ | ⟨b, m⟩) <;> simp [Shares]
        · intro h
          simp only [Full, readSlice, sliceCap, ha, Option.getD_some, List.length_take] at h
          have hx : xs = [] := List.length_eq_zero_iff.1 (by omega)
          exact ⟨hx, by simp [hx]⟩
    · simp only [goAppend, ha, Option.getD_some, if_neg hc]
      have hget : ∀ (y : List Pair) b, b < A.length → (A ++ [y])[b]? = A[b]? := fun y b hb => List.getElem?_append_left hb
      refine ⟨?_, ?_, ?_, ?_, ?_⟩
      · simp only [readSlice, List.getElem?_concat_length, Option.getD_some, ha]
        rw [List.take_append_of_le_length (by simp [hn]), List.take_of_length_le (by simp [hn])]
      · exact ⟨_, List.getElem?_concat_length .., by simp; omega⟩
      · rintro (_ | ⟨b, m⟩) ht
        · exact ⟨trivial, rfl⟩
        · have := hget (arr.take n ++ xs ++ List.replicate (grow arr.length (n + xs.length) - (n + xs.length)) ⟨0, 0⟩) b (hlt b m ht)
          obtain ⟨arr', h1, h2⟩ := ht
          exact ⟨⟨arr', by rw [this, h1], h2⟩, by simp only [sliceCap, this]⟩
      · rintro (_ | ⟨b, m⟩) ht _
        · rfl
        · simp only [readSlice, hget _ b (hlt b m ht)]
      · refine Or.inl ?_
        rintro (_ | ⟨b, m⟩) ht hs
        · exact hs
        · have := hlt b m ht
          simp only [Shares] at hs
          omega

/-- No two scores share an array with spare capacity. -/
structure Safe (A : Arrays) (S : List PSlice) : Prop where
  bounds : ∀ (i : Nat) (s : PSlice), S[i]? = some s → InBounds A s
  sep : ∀ (i j : Nat) (s t : PSlice), i ≠ j → S[i]? = some s → S[j]? = some t → Shares s t → Full A s ∧ Full A t

theorem Shares.symm {s t : PSlice} (h : Shares s t) : Shares t s := by
  cases s <;> cases t <;> simp_all [Shares]

/-- Appending to the slice of score `i`. -/
theorem Safe.append {A : Arrays} {S : List PSlice} (h : Safe A S) (grow : Nat → Nat → Nat) {i : Nat} {s : PSlice} (hi : S[i]? = some s) (xs : List Pair) :
    Safe (goAppend grow A s xs).1 (S.set i (goAppend grow A s xs).2) ∧
    readSlice (goAppend grow A s xs).1 (goAppend grow A s xs).2 = readSlice A s ++ xs ∧
    ∀ (j : Nat) (t : PSlice), j ≠ i → S[j]? = some t → readSlice (goAppend grow A s xs).1 t = readSlice A t := by
  obtain ⟨g1, g2, g3, g4, g5⟩ := goAppend_spec grow (h.bounds i s hi) xs
  have hlt : i < S.length := (List.getElem?_eq_some_iff.1 hi).1
  have hread : ∀ (j : Nat) (t : PSlice), j ≠ i → S[j]? = some t → readSlice (goAppend grow A s xs).1 t = readSlice A t := by
    intro j t hj ht
    refine g4 t (h.bounds j t ht) ?_
    by_cases hsh : Shares s t
    · exact Or.inr (Or.inl (h.sep i j s t (Ne.symm hj) hi ht hsh).1)
    · exact Or.inl hsh
  have hfull : ∀ (j : Nat) (t : PSlice), j ≠ i → S[j]? = some t → Full A t → Full (goAppend grow A s xs).1 t := by
    intro j t hj ht hf
    unfold Full at hf ⊢
    rw [hread j t hj ht, (g3 t (h.bounds j t ht)).2]
    exact hf
  refine ⟨⟨?_, ?_⟩, g1, hread⟩
  · intro j t ht
    rw [List.getElem?_set] at ht
    split at ht
    · simp only [hlt, if_true, Option.some.injEq] at ht
      rw [← ht]
      exact g2
    · exact (g3 t (h.bounds j t ht)).1
  · have key : ∀ (j : Nat) (t : PSlice), j ≠ i → S[j]? = some t → Shares (goAppend grow A s xs).2 t →
        Full (goAppend grow A s xs).1 (goAppend grow A s xs).2 ∧ Full (goAppend grow A s xs).1 t := by
      intro j t hj ht hsh
      rcases g5 with g5 | ⟨g5, g6⟩
      · exact absurd hsh.symm (g5 t (h.bounds j t ht))
      · obtain ⟨f1, f2⟩ := h.sep i j s t (Ne.symm hj) hi ht ((g5 t).1 hsh)
        obtain ⟨rfl, he⟩ := g6 f1
        refine ⟨?_, hfull j t hj ht f2⟩
        unfold Full
        rw [g1, he, (g3 s (h.bounds i s hi)).2]
        simpa [Full] using f1
    intro j k t u hjk hj hk hsh
    rw [List.getElem?_set] at hj hk
    split at hj
    · rename_i e
      simp only [hlt, if_true, Option.some.injEq] at hj
      split at hk
      · rename_i e'; exact absurd (e.symm.trans e') hjk
      · rename_i e'
        rw [← hj] at hsh ⊢
        exact key k u (Ne.symm e') hk hsh
    · rename_i e
      split at hk
      · rename_i e'
        simp only [hlt, if_true, Option.some.injEq] at hk
        rw [← hk] at hsh ⊢
        exact (key j t (Ne.symm e) hj hsh.symm).symm
      · rename_i e'
        obtain ⟨f1, f2⟩ := h.sep j k t u hjk hj hk hsh
        exact ⟨hfull j t (Ne.symm e) hj f1, hfull k u (Ne.symm e') hk f2⟩

/-- Appending to the slice of score `i` for a new score, if that slice has no spare capacity. -/
theorem Safe.appendNew {A : Arrays} {S : List PSlice} (h : Safe A S) (grow : Nat → Nat → Nat) {i : Nat} {s : PSlice} (hi : S[i]? = some s) (hf : Full A s) (xs : List Pair) :
    Safe (goAppend grow A s xs).1 (S ++ [(goAppend grow A s xs).2]) ∧
    readSlice (goAppend grow A s xs).1 (goAppend grow A s xs).2 = readSlice A s ++ xs ∧
    ∀ (j : Nat) (t : PSlice), S[j]? = some t → readSlice (goAppend grow A s xs).1 t = readSlice A t := by
  obtain ⟨g1, g2, g3, g4, g5⟩ := goAppend_spec grow (h.bounds i s hi) xs
  have hread : ∀ (j : Nat) (t : PSlice), S[j]? = some t → readSlice (goAppend grow A s xs).1 t = readSlice A t :=
    fun j t ht => g4 t (h.bounds j t ht) (Or.inr (Or.inl hf))
  have hfull : ∀ (j : Nat) (t : PSlice), S[j]? = some t → Full A t → Full (goAppend grow A s xs).1 t := by
    intro j t ht hf
    unfold Full at hf ⊢
    rw [hread j t ht, (g3 t (h.bounds j t ht)).2]
    exact hf
  have hcase : ∀ (j : Nat) (t : PSlice), (S ++ [(goAppend grow A s xs).2])[j]? = some t → S[j]? = some t ∨ (j = S.length ∧ t = (goAppend grow A s xs).2) := by
    intro j t ht
    by_cases hj : j < S.length
    · rw [List.getElem?_append_left hj] at ht; exact Or.inl ht
    · rw [List.getElem?_append_right (by omega)] at ht
      have : j - S.length = 0 := by
        have := (List.getElem?_eq_some_iff.1 ht).1
        simpa using this
      rw [this] at ht
      exact Or.inr ⟨by omega, by simpa using ht.symm⟩
  have key : ∀ (j : Nat) (t : PSlice), S[j]? = some t → Shares (goAppend grow A s xs).2 t →
      Full (goAppend grow A s xs).1 (goAppend grow A s xs).2 ∧ Full (goAppend grow A s xs).1 t := by
    intro j t ht hsh
    rcases g5 with g5 | ⟨g5, g6⟩
    · exact absurd hsh.symm (g5 t (h.bounds j t ht))
    · obtain ⟨rfl, he⟩ := g6 hf
      have hst := (g5 t).1 hsh
      have ft : Full A t := by
        by_cases hij : i = j
        · subst hij
          rw [hi] at ht
          cases ht
          exact hf
        · exact (h.sep i j s t hij hi ht hst).2
      refine ⟨?_, hfull j t ht ft⟩
      unfold Full
      rw [g1, he, (g3 s (h.bounds i s hi)).2]
      simpa [Full] using hf
  refine ⟨⟨?_, ?_⟩, g1, hread⟩
  · intro j t ht
    rcases hcase j t ht with ht | ⟨_, rfl⟩
    · exact (g3 t (h.bounds j t ht)).1
    · exact g2
  · intro j k t u hjk hj hk hsh
    rcases hcase j t hj with hj | ⟨ej, rfl⟩
    · rcases hcase k u hk with hk | ⟨ek, rfl⟩
      · obtain ⟨f1, f2⟩ := h.sep j k t u hjk hj hk hsh
        exact ⟨hfull j t hj f1, hfull k u hk f2⟩
      · exact (key j t hj hsh.symm).symm
    · rcases hcase k u hk with hk | ⟨ek, rfl⟩
      · exact key k u hk hsh
      · exact absurd (ej.trans ek.symm) hjk

theorem Safe.clear {A : Arrays} {S : List PSlice} (h : Safe A S) (i : Nat) : Safe A (S.set i none) := by
  refine ⟨?_, ?_⟩
  · intro j t ht
    rw [List.getElem?_set] at ht
    split at ht
    · split at ht
      · cases ht; trivial
      · cases ht
    · exact h.bounds j t ht
  · intro j k t u hjk hj hk hsh
    rw [List.getElem?_set] at hj hk
    split at hj
    · split at hj
      · cases hj; simp [Shares] at hsh
      · cases hj
    · split at hk
      · split at hk
        · cases hk; exact absurd hsh.symm (by simp [Shares])
        · cases hk
      · exact h.sep j k t u hjk hj hk hsh

theorem Safe.new {A : Arrays} {S : List PSlice} (h : Safe A S) : Safe A (S ++ [none]) := by
  have hcase : ∀ (j : Nat) (t : PSlice), (S ++ [Option.none])[j]? = some t → S[j]? = some t ∨ t = Option.none := by
    intro j t ht
    by_cases hj : j < S.length
    · rw [List.getElem?_append_left hj] at ht; exact Or.inl ht
    · rw [List.getElem?_append_right (by omega)] at ht
      have : j - S.length = 0 := by
        have := (List.getElem?_eq_some_iff.1 ht).1
        simpa using this
      rw [this] at ht
      exact Or.inr (by simpa using ht.symm)
  refine ⟨?_, ?_⟩
  · intro j t ht
    rcases hcase j t ht with ht | rfl
    · exact h.bounds j t ht
    · trivial
  · intro j k t u hjk hj hk hsh
    rcases hcase j t hj with hj | rfl
    · rcases hcase k u hk with hk | rfl
      · exact h.sep j k t u hjk hj hk hsh
      · exact absurd hsh.symm (by simp [Shares])
    · exact absurd hsh (by simp [Shares])

end Gospn
