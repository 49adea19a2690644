import Verif.Model.ReadFile
import Verif.Props.Serial
/-
Property C139: what ReadFromFile does with a saved network.
-/
set_option linter.unusedSectionVars false
set_option linter.unusedSimpArgs false

namespace Gospn
open Spec
variable {ι F : Type} [DecidableEq ι] [Fintype ι] [GoFloat F]

/-- C139, what holds: `ReadFromFile` touches no other file, and if it returns at all it returns nil.
Missing: that it reads the network and leaves its file as it is, which is false (`C139_destroyed`). -/
theorem C139_others_partial (creates : Bool) (D : RawDisk F) (name : String) :
    (∀ other, other ≠ name → (readFromFile creates D name).1 other = D other) ∧
    ((readFromFile creates D name).2 = none ∨ (readFromFile creates D name).2 = some none) := by
  unfold readFromFile
  cases creates <;> simp +contextual [Function.update_of_ne]

/-- C139 is refuted for every saved network: `ReadFromFile` returns nil for its file, and the file is empty then, so that `LoadSPN`, which gave a copy of the
network before, panics. -/
theorem C139_destroyed (f6 : F → F) (D : RawDisk F) (name : String) (N : Net ι F) (S : ι) (hac : Acyclic N.ch) (hso : SiblingOrdered N.ch S) (hn : Fintype.card ι < 4294967296) :
    let D1 := (saveRaw f6 .done D name N S).1
    (∃ ks r, loadRaw D1 name = some (some (ks, r)) ∧ ∃ h : r < ks.length, IsCopy (stored f6 N) S (netOf ks) ⟨r, h⟩) ∧
      (readFromFile true D1 name).2 = some none ∧ (readFromFile true D1 name).1 name = some none ∧ loadRaw (readFromFile true D1 name).1 name = none := by
  obtain ⟨ks, r, h1, h2⟩ := C30_copy_partial f6 N S hac hso hn
  refine ⟨⟨ks, r, ?_, h2⟩, ?_⟩
  · simp [loadRaw, saveRaw, h1]
  · simp [readFromFile, loadRaw]

/-- C139 as it stands fails. -/
theorem C139_refuted : ¬ ∀ (D : RawDisk XR) (name : String), D name ≠ none → loadRaw D name ≠ some none → (readFromFile true D name).2 = loadRaw D name ∧ (readFromFile true D name).1 = D := by
  intro h
  have hd := diamondNet_ok (F := XR) [.fin 0, .fin 1] (.indicator 0 1)
  obtain ⟨⟨ks, r, h1, _⟩, h2, _⟩ := C139_destroyed (fun x : XR => x) (fun _ => none) "a" (diamondNet [.fin 0, .fin 1] (.indicator 0 1)) 0 hd.1 hd.2 (by simp)
  have h3 := (h (saveRaw (fun x : XR => x) .done (fun _ => none) "a" (diamondNet [.fin 0, .fin 1] (.indicator 0 1)) 0).1 "a" (by simp [saveRaw]) (by rw [h1]; simp)).1
  have h4 := h3.symm.trans h2
  rw [h1] at h4
  cases h4

/-- The hypotheses of `C139_destroyed` are met by a network with a shared node. -/
example : Acyclic (diamondNet (F := XR) [.fin 0, .fin 1] (.indicator 0 1)).ch ∧ SiblingOrdered (diamondNet (F := XR) [.fin 0, .fin 1] (.indicator 0 1)).ch 0 ∧ Fintype.card (Fin 4) < 4294967296 :=
  ⟨(diamondNet_ok _ _).1, (diamondNet_ok _ _).2, by simp⟩

end Gospn
