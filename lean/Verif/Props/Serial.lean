import Verif.Proofs.Serial
import Verif.Props.Infer
/-!
Property C30: Marshal and Unmarshal. `f6` is the effect of printing a number with `%f` and reading it back.
-/
set_option linter.unusedSectionVars false
namespace Gospn
open Spec GoFloat
variable {ι F : Type} [GoFloat F] [DecidableEq ι] [Fintype ι]

/-- C30, part: for a network without cycles where no child is reachable from a sibling listed after it, `Unmarshal` makes of what `Marshal` wrote a copy of the
network (same types, same children in the same order, same sharing), in which weights and probabilities have lost everything after the sixth decimal.
Missing: other networks (`C30_order_refuted`), and the lost digits (`C30_weights_refuted`). -/
theorem C30_copy_partial (f6 : F → F) (N : Net ι F) (S : ι) (hac : Acyclic N.ch) (hso : SiblingOrdered N.ch S) (hn : Fintype.card ι < 4294967296) :
    ∃ ks r, unmarshal (marshal f6 N S) = some (ks, r) ∧ ∃ h : r < ks.length, IsCopy (stored f6 N) S (netOf ks) ⟨r, h⟩ := by
  have hol := N.order_lists S
  have hcf := Net.order_childrenFirst hac hso
  have hlen : (N.order S).length < 4294967296 := lt_of_le_of_lt (List.Nodup.length_le_card hol.1) hn
  have hS : S ∈ N.order S := (hol.2 S).2 Relation.ReflTransGen.refl
  have hpos : 0 < (N.order S).length := List.length_pos_of_mem hS
  refine ⟨_, _, unmarshal_marshal f6 N S hac hso hlen, by simp only [List.length_map]; omega, ?_⟩
  exact netOf_placed f6 N S (N.order S) hol (order_last hol hcf) _ (by simp) (by intro i h; simp) _ rfl _

/-- C30, part: if in addition no weight and no probability has more than six decimals, and the modes recorded are those `computeMode` finds, the result is a copy
with the same parameters. -/
theorem C30_exact_copy_partial (f6 : F → F) (N : Net ι F) (S : ι) (hac : Acyclic N.ch) (hso : SiblingOrdered N.ch S) (hn : Fintype.card ι < 4294967296)
    (hs : ∀ n, Survives f6 (N.kind n)) :
    ∃ ks r, unmarshal (marshal f6 N S) = some (ks, r) ∧ ∃ h : r < ks.length, IsCopy N S (netOf ks) ⟨r, h⟩ := by
  have : stored f6 N = N := by
    cases N with
    | mk kind => simp only [stored, Net.mk.injEq]; funext n; exact storedKind_survives (hs n)
  have h := C30_copy_partial f6 N S hac hso hn
  rwa [this] at h

example : Acyclic (diamondNet (F := XR) [.fin 0, .fin 1] (.indicator 0 1)).ch ∧ SiblingOrdered (diamondNet (F := XR) [.fin 0, .fin 1] (.indicator 0 1)).ch 0 ∧
    Fintype.card (Fin 4) < 4294967296 ∧ ∀ n, Survives (fun x : XR => x) ((diamondNet [.fin 0, .fin 1] (.indicator 0 1)).kind n) := by
  refine ⟨(diamondNet_ok _ _).1, (diamondNet_ok _ _).2, by simp, ?_⟩
  intro n
  fin_cases n <;> simp [diamondNet, Survives]

/-- C30: a copy gives the same results, bit for bit, on every evidence. -/
theorem C30_copy_same_results {κ : Type} [DecidableEq κ] [Fintype κ] (N : Net ι F) (S : ι) (N' : Net κ F) (S' : κ) (h : IsCopy N S N' S') (hac : Acyclic N.ch) (I : VarSet) :
    N'.value I S' = N.value I S ∧ N'.max I S' = N.max I S ∧ N'.argMax I S' = N.argMax I S := by
  obtain ⟨f, _, rfl, _, hk⟩ := h
  exact copy_results hk hac I S'

example (w : List F) (l : Leaf F) : IsCopy (diamondNet w l) 0 (diamondNet w l) 0 := by
  refine ⟨id, Function.injective_id, rfl, ?_, ?_⟩
  · intro x
    refine ⟨fun _ => ⟨x, rfl⟩, fun _ => ?_⟩
    rw [diamondNet_ch]
    have h1 : Reach diamond 0 1 := Relation.ReflTransGen.single (by decide)
    have h2 : Reach diamond 0 2 := Relation.ReflTransGen.single (by decide)
    have h3 : Reach diamond 0 3 := h1.tail (by decide)
    fin_cases x
    · exact Relation.ReflTransGen.refl
    · exact h1
    · exact h2
    · exact h3
  · intro i; fin_cases i <;> simp [diamondNet, relabel]

/-- A product 0 over a leaf 1 and a product 2 whose only child is that leaf. -/
def skipProd : Net (Fin 3) F := ⟨![.product [1, 2], .leaf (.indicator 0 1), .product [1]]⟩

theorem skipProd_ch : (skipProd : Net (Fin 3) F).ch = skipDag := by funext i; fin_cases i <;> rfl

theorem skipProd_marshal (f6 : F → F) : marshal f6 (skipProd : Net (Fin 3) F) 0 =
    { header := putUint32 3, msgs := [(0, .product, []), (1, .indicator, [.int 0, .int 1]), (2, .product, [])], list := [[0], [], [1, 0]] } := by
  have ho : tarjanOrder (skipProd : Net (Fin 3) F).ch 0 = [2, 1, 0] := by
    rw [← Net.order_eq, Net.order, skipProd_ch]; decide
  unfold marshal
  rw [topSortTarjanFunc_eq, callUntilFalse_true _ (fun _ _ => rfl), ho, ]
  rfl

/-- C30 is false for networks with an edge bridged by a longer path: a child that has no number yet is written as child number 0, and the network read back has a
cycle. -/
theorem C30_order_refuted : ∃ (N : Net (Fin 3) F), Acyclic N.ch ∧ ∀ f6, ∃ ks r, unmarshal (marshal f6 N 0) = some (ks, r) ∧ ¬ Acyclic (netOf ks).ch := by
  refine ⟨skipProd, by rw [skipProd_ch]; exact skipDag_acyclic, fun f6 => ?_⟩
  refine ⟨[some (.product [0]), some (.leaf (.indicator 0 1)), some (.product [1, 0])], 2, ?_, ?_⟩
  · rw [skipProd_marshal]; rfl
  · rintro ⟨rank, hr⟩
    have h0 : 0 < ([some (.product [0]), some (.leaf (.indicator 0 1)), some (.product [1, 0])] : List (Option (Kind Nat F))).length := by simp
    have := hr ⟨0, h0⟩ ⟨0, h0⟩ (by simp [Net.ch, netOf, finKind])
    exact lt_irrefl _ this

open Classical in
/-- Printing with `%f` and reading back, on exact numbers: the nearest multiple of 10⁻⁶. -/
noncomputable def sixDecimals : XR → XR
  | .fin r => .fin (round (r * 1000000) / 1000000)
  | x => x

/-- A sum with one child, of weight 10⁻⁷. -/
noncomputable def tinyNet : Net (Fin 2) XR := ⟨![.sum [1] [.fin (1 / 10000000)], .leaf (.indicator 0 1)]⟩

theorem tinyNet_ch : tinyNet.ch = ![[1], []] := by funext i; fin_cases i <;> rfl

/-- C30 is false for parameters with more than six decimals: evidence of probability 10⁻⁷ has probability zero in the network read back. -/
theorem C30_weights_refuted : ∃ (N : Net (Fin 2) XR) (I : VarSet) (ks : List (Option (Kind Nat XR))) (r : Nat) (h : r < ks.length), Acyclic N.ch ∧
    unmarshal (marshal sixDecimals N 0) = some (ks, r) ∧ N.value I 0 = some (.fin (Real.log (1 / 10000000))) ∧ (netOf ks).value I ⟨r, h⟩ = some .ninf := by
  have hac : Acyclic tinyNet.ch := by rw [tinyNet_ch]; exact ⟨![1, 0], by decide⟩
  have h6 : sixDecimals (.fin (1 / 10000000)) = .fin 0 := by
    have : round ((1 : ℝ) / 10000000 * 1000000) = 0 := by
      rw [round_eq, Int.floor_eq_zero_iff]; constructor <;> norm_num
    simp only [sixDecimals, this]; simp
  have hso : SiblingOrdered tinyNet.ch 0 := by
    apply TransitivelyReduced.siblingOrdered
    rw [tinyNet_ch]
    intro w _ a ha b hb hr
    fin_cases w <;> fin_cases a <;> fin_cases b <;> simp_all
  obtain ⟨ks, r, hu, h, f, _, hf, _, hk⟩ := C30_copy_partial sixDecimals tinyNet 0 hac hso (by simp)
  refine ⟨tinyNet, fun _ => some 1, ks, r, h, hac, hu, ?_, ?_⟩
  · have h1 : tinyNet.value (fun _ => some 1) 1 = some (.fin 0) := by
      rw [Net.value_unfold hac]; simp [Net.valueStep, tinyNet, Leaf.value]
    have hl : XR.log (.fin (1 / 10000000)) = .fin (Real.log (1 / 10000000)) := XR.log_pos (by norm_num)
    rw [Net.value_unfold hac]
    have : tinyNet.kind 0 = .sum [1] [.fin (1 / 10000000)] := rfl
    simp only [Net.valueStep, this, List.mapM_cons, List.mapM_nil, h1]
    simp [weighted, logSumExp, XR.lt, XR.log]
  · have hch : (stored sixDecimals tinyNet).ch = tinyNet.ch := by funext i; fin_cases i <;> rfl
    have hac' : Acyclic (stored sixDecimals tinyNet).ch := by rw [hch]; exact hac
    rw [(copy_results hk hac' _ _).1, hf]
    have h1 : (stored sixDecimals tinyNet).value (fun _ => some 1) 1 = some (.fin 0) := by
      rw [Net.value_unfold hac']; simp [Net.valueStep, tinyNet, stored, storedKind, Leaf.value]
    rw [Net.value_unfold hac']
    have : (stored sixDecimals tinyNet).kind 0 = .sum [1] [.fin 0] := by
      show storedKind sixDecimals (.sum [1] [.fin (1 / 10000000)]) = _
      simp only [storedKind, List.map_cons, List.map_nil, h6]
    simp only [Net.valueStep, this, List.mapM_cons, List.mapM_nil, h1]
    simp [weighted, logSumExp, XR.lt, XR.log]

end Gospn
