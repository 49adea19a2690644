/-
Theorems about the encoding of variables: C108.
-/
import Verif.Model.VariableGob
import Verif.Proofs.Text

set_option linter.unusedSectionVars false
set_option linter.unusedSimpArgs false

namespace Gospn
open Spec

/-- The blanks among the ASCII characters. -/
def Spec.blanks : List Char := [' ', '\t', '\n', '\x0b', '\x0c', '\r']

theorem isBlank_iff (c : Char) : isBlank c = true ↔ c ∈ blanks := by
  simp [isBlank, blanks, or_assoc]

theorem not_isBlank_iff (c : Char) : isBlank c = false ↔ c ∉ blanks := by
  rw [← isBlank_iff]; simp

theorem skipBlanks_blank_cons {c : Char} {s : Str} (h : isBlank c = false) : skipBlanks (c :: s) = some (c :: s) := by
  have : c ≠ '\n' := by rintro rfl; exact absurd h (by decide)
  simp [skipBlanks, this, h]

theorem skipBlanks_itoa (v : Int) (s : Str) : skipBlanks (itoa v ++ s) = some (itoa v ++ s) := by
  obtain ⟨c, t, ht⟩ := List.exists_cons_of_ne_nil (itoa_ne_nil v)
  have hc := itoa_not (v := v) (p := isBlank) (by decide) isBlank_isDec c (by rw [ht]; simp)
  rw [ht, List.cons_append, skipBlanks_blank_cons hc]

theorem skipBlanks_space (s : Str) : skipBlanks (' ' :: s) = skipBlanks s := by
  rw [skipBlanks]
  simp [show isBlank ' ' = true by decide]

theorem scanIntLn_itoa {v : Int} (h : inInt64 v = true) (s : Str) : scanIntLn (itoa v ++ ' ' :: s) = some (v, ' ' :: s) := by
  rw [scanIntLn, skipBlanks_itoa, Option.bind_some, scanInt_itoa h _ (by simp; decide)]

theorem decodeVar_encode {v : NamedVar} (h1 : inInt64 v.varid = true) (h2 : inInt64 v.categories = true) :
    decodeVar (encodeVar v) = (scanStrLn (v.name ++ ['\n'])).bind fun c => if endOfLine c.2 then some ⟨v.varid, v.categories, c.1⟩ else none := by
  unfold decodeVar encodeVar
  rw [scanIntLn_itoa h1, Option.bind_some]
  dsimp only
  have : scanIntLn (' ' :: (itoa v.categories ++ ' ' :: (v.name ++ ['\n']))) = some (v.categories, ' ' :: (v.name ++ ['\n'])) := by
    have := scanIntLn_itoa h2 (v.name ++ ['\n'])
    unfold scanIntLn at this ⊢
    rw [skipBlanks_space, this]
  rw [this, Option.bind_some]
  dsimp only
  have : scanStrLn (' ' :: (v.name ++ ['\n'])) = scanStrLn (v.name ++ ['\n']) := by
    unfold scanStrLn
    rw [skipBlanks_space]
  rw [this]

theorem skipBlanks_head : ∀ (s t : Str), skipBlanks s = some t → (t.head?).all (fun c => !isBlank c) = true := by
  intro s
  induction s with
  | nil => intro t h; simp [skipBlanks] at h; subst h; rfl
  | cons c s ih =>
    intro t h
    unfold skipBlanks at h
    split at h
    · cases h
    · split at h
      · exact ih t h
      · cases h
        rename_i hb
        simp [hb]

/-- What is decoded has a name that is not empty and has no blank. -/
theorem decodeVar_name {s : Str} {v : NamedVar} (h : decodeVar s = some v) : v.name ≠ [] ∧ ∀ c ∈ v.name, isBlank c = false := by
  unfold decodeVar at h
  simp only [Option.bind_eq_some_iff] at h
  obtain ⟨a, _, b, _, c, hc, h⟩ := h
  split at h
  swap
  · cases h
  cases h
  unfold scanStrLn at hc
  rw [Option.bind_eq_some_iff] at hc
  obtain ⟨t, ht, hc⟩ := hc
  split at hc
  · cases hc
  rename_i hne
  cases hc
  have hh := skipBlanks_head _ _ ht
  refine ⟨?_, fun c hc => by simpa using (List.all_takeWhile (l := t) (p := fun c => !isBlank c) |> List.all_eq_true.1) c hc⟩
  cases t with
  | nil => exact absurd rfl hne
  | cons d t => simp at hh; simp [hh]

/-- C108: a variable is decoded to itself exactly if its name is not empty and has no blank. -/
theorem C108_roundtrip_iff (v : NamedVar) (h1 : Int64Range v.varid) (h2 : Int64Range v.categories) :
    decodeVar (encodeVar v) = some v ↔ v.name ≠ [] ∧ ∀ c ∈ v.name, c ∉ blanks := by
  simp only [← not_isBlank_iff]
  refine ⟨decodeVar_name, fun ⟨hne, hb⟩ => ?_⟩
  rw [decodeVar_encode ((inInt64_iff _).2 h1) ((inInt64_iff _).2 h2)]
  obtain ⟨c, t, ht⟩ := List.exists_cons_of_ne_nil hne
  have hskip : skipBlanks (v.name ++ ['\n']) = some (v.name ++ ['\n']) := by
    rw [ht, List.cons_append, skipBlanks_blank_cons (hb c (by rw [ht]; simp))]
  have ha : ∀ c ∈ v.name, (!isBlank c) = true := fun c hc => by simp [hb c hc]
  have h1 : (v.name ++ ['\n']).takeWhile (fun c => !isBlank c) = v.name := by
    rw [List.takeWhile_append_of_pos ha]
    simp [show isBlank '\n' = true by decide]
  have h2 : (v.name ++ ['\n']).dropWhile (fun c => !isBlank c) = ['\n'] := by
    rw [List.dropWhile_append_of_pos ha]
    simp [show isBlank '\n' = true by decide]
  unfold scanStrLn
  rw [hskip, Option.bind_some, if_neg (by simp), h1, h2]
  simp [endOfLine]

example : Int64Range 3 ∧ Int64Range 256 := by constructor <;> constructor <;> norm_num

/-- C108: what a name made of words, with blanks around them, is decoded to. One word: the word. -/
theorem C108_one_word (v : NamedVar) (h1 : Int64Range v.varid) (h2 : Int64Range v.categories) (pre w post : Str) (hv : v.name = pre ++ w ++ post) (hw : w ≠ [])
    (hpre : ∀ c ∈ pre, c ∈ blanks ∧ c ≠ '\n') (hword : ∀ c ∈ w, c ∉ blanks) (hpost : ∀ c ∈ post, c ∈ blanks) :
    decodeVar (encodeVar v) = some ⟨v.varid, v.categories, w⟩ := by
  simp only [← not_isBlank_iff] at hword
  simp only [← isBlank_iff] at hpre hpost
  rw [decodeVar_encode ((inInt64_iff _).2 h1) ((inInt64_iff _).2 h2), hv]
  have hskip : skipBlanks (pre ++ w ++ post ++ ['\n']) = some (w ++ (post ++ ['\n'])) := by
    clear hv
    induction pre with
    | nil =>
      obtain ⟨c, t, ht⟩ := List.exists_cons_of_ne_nil hw
      rw [ht]
      simp only [List.nil_append, List.cons_append, List.append_assoc]
      rw [skipBlanks_blank_cons (hword c (by rw [ht]; simp))]
    | cons c pre ih =>
      have := hpre c (by simp)
      simp only [List.cons_append]
      rw [skipBlanks]
      simp only [this.1, this.2, if_false, if_true]
      simpa using ih fun c hc => hpre c (by simp [hc])
  have ha : ∀ c ∈ w, (!isBlank c) = true := fun c hc => by simp [hword c hc]
  have hb : ((post ++ ['\n']).head?).all isBlank = true := by
    cases post with
    | nil => simp; decide
    | cons c post => simp [hpost c (by simp)]
  have h1 : (w ++ (post ++ ['\n'])).takeWhile (fun c => !isBlank c) = w := by
    rw [List.takeWhile_append_of_pos ha]
    cases hpn : post ++ ['\n'] with
    | nil => simp
    | cons c s => rw [hpn] at hb; simp at hb; simp [hb]
  have h2 : (w ++ (post ++ ['\n'])).dropWhile (fun c => !isBlank c) = post ++ ['\n'] := by
    rw [List.dropWhile_append_of_pos ha]
    cases hpn : post ++ ['\n'] with
    | nil => simp
    | cons c s => rw [hpn] at hb; simp at hb; simp [hb]
  have hend : endOfLine (post ++ ['\n']) = true := by
    clear h1 h2 hb hskip hv
    induction post with
    | nil => simp [endOfLine]
    | cons c post ih =>
      simp only [List.cons_append, endOfLine, hpost c (by simp), if_true]
      split
      · rfl
      · exact ih fun c hc => hpost c (by simp [hc])
  unfold scanStrLn
  rw [hskip, Option.bind_some, if_neg (by simp [hw]), h1, h2]
  simp [hend]

example : ∃ v : NamedVar, ∃ pre w post : Str, v.name = pre ++ w ++ post ∧ w ≠ [] ∧ (∀ c ∈ pre, c ∈ blanks ∧ c ≠ '\n') ∧ (∀ c ∈ w, c ∉ blanks) ∧ ∀ c ∈ post, c ∈ blanks :=
  ⟨⟨0, 2, " ab ".toList⟩, [' '], ['a', 'b'], [' '], by decide⟩

/-- C108 fails for the variables that structure learning makes, which have no name (learn/gens/gens.go:134): they cannot be decoded. -/
theorem C108_refuted (v c : Int) (h1 : Int64Range v) (h2 : Int64Range c) : decodeVar (encodeVar ⟨v, c, []⟩) = none := by
  rw [decodeVar_encode ((inInt64_iff _).2 h1) ((inInt64_iff _).2 h2)]
  simp [scanStrLn, skipBlanks]

/-- C108 fails for names of two words: they cannot be decoded; and a blank at the end is lost without an error. -/
theorem C108_blank_refuted : decodeVar (encodeVar ⟨0, 2, "petal length".toList⟩) = none ∧ decodeVar (encodeVar ⟨0, 2, "petal ".toList⟩) = some ⟨0, 2, "petal".toList⟩ := by
  decide +kernel

example : decodeVar (encodeVar ⟨-7, 2, "petal".toList⟩) = some ⟨-7, 2, "petal".toList⟩ := by decide +kernel

end Gospn
