/-
C148: the types of npy files.
-/
import Verif.Model.Npy
import Mathlib.Data.Fin.VecNotation
import Mathlib.Tactic.FinCases

set_option linter.unusedSimpArgs false

namespace Gospn

/-- `t` names the integers of `2 ^ e` bytes, signed or not: a byte order, a letter and the number of bytes, or the name with the number of bits. -/
def Spec.IsIntType (t : String) (signed : Bool) (e : Fin 4) : Prop :=
  (∃ order ∈ ["", "<", "|", ">"], t = order ++ (if signed then "i" else "u") ++ (!["1", "2", "4", "8"] : Fin 4 → String) e) ∨
    t = (if signed then "int" else "uint") ++ (!["8", "16", "32", "64"] : Fin 4 → String) e

open Spec

/-- C148, part: a name of an integer type other than ">u1" is recognised, and its class tells the sign and the size. Missing: ">u1" (`C148_refuted`). -/
theorem C148_recognised_partial (t : String) (signed : Bool) (e : Fin 4) (h : IsIntType t signed e) (ht : t ≠ ">u1") : npyIsValid t = (if signed then 4 else 0) + (e.val : Int) := by
  rcases h with ⟨o, ho, rfl⟩ | rfl
  · simp only [List.mem_cons, List.not_mem_nil, or_false] at ho
    rcases ho with rfl | rfl | rfl | rfl <;> cases signed <;> fin_cases e <;> first | (exact absurd rfl ht) | decide
  · cases signed <;> fin_cases e <;> decide

/-- C148: nothing but the names of integer types is recognised. -/
theorem C148_only (t : String) (h : 0 ≤ npyIsValid t) : ∃ signed e, IsIntType t signed e ∧ npyIsValid t = (if signed then 4 else 0) + (e.val : Int) := by
  have hmem : t ∈ validTypes := by
    unfold npyIsValid at h
    cases hf : validTypes.findIdx? (fun v => t == v) with
    | none => simp [hf] at h
    | some i =>
      obtain ⟨hi, h1, _⟩ := List.findIdx?_eq_some_iff_getElem.1 hf
      have : t = validTypes[i] := by simpa using h1
      rw [this]
      exact List.getElem_mem hi
  have key : ∀ v ∈ validTypes, ∃ signed e, IsIntType v signed e ∧ v ≠ ">u1" := by
    unfold validTypes IsIntType
    decide
  obtain ⟨s, e, h1, h2⟩ := key t hmem
  exact ⟨s, e, h1, C148_recognised_partial t s e h1 h2⟩

/-- C148 is refuted: ">u1" names the unsigned integers of one byte and is refused, while ">i1" is accepted. -/
theorem C148_refuted : IsIntType ">u1" false 0 ∧ npyIsValid ">u1" = -1 ∧ npyIsValid ">i1" = 4 :=
  ⟨Or.inl ⟨">", by simp, rfl⟩, by decide, by decide⟩

example : IsIntType "<i8" true 3 ∧ "<i8" ≠ ">u1" ∧ IsIntType "uint16" false 1 ∧ 0 ≤ npyIsValid "uint16" :=
  ⟨Or.inl ⟨"<", by simp, rfl⟩, by decide, Or.inr rfl, by decide⟩

end Gospn
