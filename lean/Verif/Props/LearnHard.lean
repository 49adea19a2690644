import Verif.Proofs.LearnHard
import Verif.Props.Learn
/-
Properties of the hard forms of the learning loops.
-/
set_option linter.unusedSectionVars false
set_option linter.unusedSimpArgs false
namespace Gospn
open Spec GoFloat

section Hard
variable {ι : Type} [DecidableEq ι] [Fintype ι]

private theorem hard_tickets : ((Storer.new : Storer ι XR).newTicket).1 ≠ ((Storer.new : Storer ι XR).newTicket.2.newTicket).1 := by
  simp [Storer.newTicket, Storer.new, Storer.makeAt]

private theorem hard_start (N : Net ι XR) (S : ι) (norm : Bool) (hw : PosWeights N S) (hn : norm = true → DistWeights N S) :
    HState S norm ((Storer.new : Storer ι XR).newTicket).1 ((Storer.new : Storer ι XR).newTicket.2.newTicket).1 N [] (N, ((Storer.new : Storer ι XR).newTicket.2.newTicket).2) := by
  refine ⟨.refl _ _, hw, hn, Storer.newTicket_wf (Storer.newTicket_wf Storer.new_wf), ⟨by simp [Storer.newTicket, Storer.new, Storer.makeAt],
    by simp [Storer.newTicket, Storer.new, Storer.makeAt, Storer.table], fun n x hx => ?_⟩, ⟨by simp [Storer.newTicket, Storer.new, Storer.makeAt],
    by simp [Storer.newTicket, Storer.new, Storer.makeAt, Storer.table], by simp, fun n j _ h => absurd rfl h, fun n l _ => ?_⟩⟩
  · simp [Storer.newTicket, Storer.new, Storer.makeAt, Storer.entry, Table.empty, Table.entry, Function.update_apply] at hx
  · simp [Storer.newTicket, Storer.new, Storer.makeAt, Storer.entry, Table.empty, Table.entry, Function.update_apply]

/-- C72: on acyclic decomposable networks with positive weights, a learning rate that is not negative and a regularisation constant below one half `GenerativeHardGD` returns, whatever the
random choices and the order of ranging over maps; nothing but weights of sum nodes below `S` has changed, weights stay positive, and with normalisation probability vectors stay probability vectors. -/
theorem C72_gd_keeps (N : Net ι XR) (S : ι) (P : Params XR) (eta lambda : ℝ) (hP : P.lambda = .fin lambda) (he : 0 ≤ eta) (hla : lambda < 1 / 2) (data : List VarSet) (norm : Bool)
    (mo : RangeOrder ι XR) (ho : RangesAll mo) (pick : Nat → ι → Nat → Nat) (hN : HardNet N S) (hw : PosWeights N S) (hn : norm = true → DistWeights N S)
    (hl : ∀ I ∈ data, LeavesEval N S I ∧ LeavesMax N S I) :
    ∃ N', N.generativeHardGD S P (.fin eta) data norm mo pick = some N' ∧ OnlyWeights S N N' ∧ PosWeights N' S ∧ (norm = true → DistWeights N' S) := by
  obtain ⟨⟨N', st'⟩, h1, h2⟩ := epochs_invariant (body := fun x => data.foldlM (Net.hgdInstance S P (.fin eta) ((Storer.new : Storer ι XR).newTicket).1
      ((Storer.new : Storer ι XR).newTicket.2.newTicket).1 norm mo pick) x)
    (P := HState S norm ((Storer.new : Storer ι XR).newTicket).1 ((Storer.new : Storer ι XR).newTicket.2.newTicket).1 N [])
    (by
      intro x hx
      refine foldlM_inv (f := Net.hgdInstance S P (.fin eta) ((Storer.new : Storer ι XR).newTicket).1 ((Storer.new : Storer ι XR).newTicket.2.newTicket).1 norm mo pick) data x ?_ hx
      intro I hI x hx
      obtain ⟨y, q1, q2, _⟩ := hgdInstance_state hP he hla hard_tickets ho pick hN hx (hl I hI).1 (hl I hI).2
      exact ⟨y, q1, q2⟩) P.iterations _ (hard_start N S norm hw hn)
  exact ⟨N', by simp only [Net.generativeHardGD, h1, Option.map_some], h2.shape, h2.weights, h2.dist⟩

/-- C72, the same for `GenerativeHardBGD` with a positive batch size. -/
theorem C72_bgd_keeps (N : Net ι XR) (S : ι) (P : Params XR) (eta lambda : ℝ) (hP : P.lambda = .fin lambda) (he : 0 ≤ eta) (hla : lambda < 1 / 2) (data : List VarSet) (norm : Bool)
    (b : Nat) (hb : 0 < b) (mo : RangeOrder ι XR) (ho : RangesAll mo) (pick : Nat → ι → Nat → Nat) (hN : HardNet N S) (hw : PosWeights N S) (hn : norm = true → DistWeights N S)
    (hl : ∀ I ∈ data, LeavesEval N S I ∧ LeavesMax N S I) :
    ∃ N', N.generativeHardBGD S P (.fin eta) data norm b mo pick = some N' ∧ OnlyWeights S N N' ∧ PosWeights N' S ∧ (norm = true → DistWeights N' S) := by
  obtain ⟨⟨N', st'⟩, h1, h2⟩ := epochs_invariant (body := Net.hbgdEpoch S P (.fin eta) ((Storer.new : Storer ι XR).newTicket).1
      ((Storer.new : Storer ι XR).newTicket.2.newTicket).1 norm b mo pick data)
    (P := HState S norm ((Storer.new : Storer ι XR).newTicket).1 ((Storer.new : Storer ι XR).newTicket.2.newTicket).1 N [])
    (by
      intro x hx
      obtain ⟨y, q1, q2, _⟩ := hbgdEpoch_state (ex := False) hP he hla hard_tickets hb ho pick hN (fun h => h.elim) data hl hx
      exact ⟨y, q1, q2⟩) P.iterations _ (hard_start N S norm hw hn)
  exact ⟨N', by simp only [Net.generativeHardBGD, h1, Option.map_some], h2.shape, h2.weights, h2.dist⟩

/-- C72, part: where no child is reachable from a sibling listed after it, `GenerativeHardGD` takes for every instance in turn, as many times over the data set as `P.Iterations` says, one step of hard
gradient ascent along a MAP trace of the instance. Missing: other networks (C36), weights that are zero (`C72_zero_weight_refuted`). -/
theorem C72_gd_ascent_partial (N : Net ι XR) (S : ι) (P : Params XR) (eta lambda : ℝ) (hP : P.lambda = .fin lambda) (he : 0 ≤ eta) (hla : lambda < 1 / 2) (data : List VarSet) (norm : Bool)
    (mo : RangeOrder ι XR) (ho : RangesAll mo) (pick : Nat → ι → Nat → Nat) (hN : HardNet N S) (hso : SiblingOrdered N.ch S) (hw : PosWeights N S) (hn : norm = true → DistWeights N S)
    (hl : ∀ I ∈ data, LeavesEval N S I ∧ LeavesMax N S I) :
    ∃ N', N.generativeHardGD S P (.fin eta) data norm mo pick = some N' ∧ HardRun S eta lambda 1 norm (List.replicate P.iterations.toNat (data.map ([·]))).flatten N N' := by
  have hstep : ∀ (D : List VarSet), (∀ I ∈ D, LeavesEval N S I ∧ LeavesMax N S I) → ∀ x,
      HState S norm ((Storer.new : Storer ι XR).newTicket).1 ((Storer.new : Storer ι XR).newTicket.2.newTicket).1 N [] x →
      ∃ y, D.foldlM (Net.hgdInstance S P (.fin eta) ((Storer.new : Storer ι XR).newTicket).1 ((Storer.new : Storer ι XR).newTicket.2.newTicket).1 norm mo pick) x = some y ∧
        HState S norm ((Storer.new : Storer ι XR).newTicket).1 ((Storer.new : Storer ι XR).newTicket.2.newTicket).1 N [] y ∧ HardRun S eta lambda 1 norm (D.map ([·])) x.1 y.1 := by
    intro D
    induction D with
    | nil => intro _ x hx; exact ⟨x, rfl, hx, .nil _⟩
    | cons I D ih =>
      intro hD x hx
      obtain ⟨y, q1, q2, ch, q3, q4⟩ := hgdInstance_state hP he hla hard_tickets ho pick hN hx (hD I (by simp)).1 (hD I (by simp)).2
      obtain ⟨z, p1, p2, p3⟩ := ih (fun J hJ => hD J (by simp [hJ])) y q2
      exact ⟨z, by rw [List.foldlM_cons, q1]; exact p1, p2, .cons [ch] (.cons (q4 hso) .nil) q3 p3⟩
  have hall : ∀ (k : Nat) x, HState S norm ((Storer.new : Storer ι XR).newTicket).1 ((Storer.new : Storer ι XR).newTicket.2.newTicket).1 N [] x →
      ∃ y, (List.replicate k ()).foldlM (fun x _ => data.foldlM (Net.hgdInstance S P (.fin eta) ((Storer.new : Storer ι XR).newTicket).1
        ((Storer.new : Storer ι XR).newTicket.2.newTicket).1 norm mo pick) x) x = some y ∧ HardRun S eta lambda 1 norm (List.replicate k (data.map ([·]))).flatten x.1 y.1 := by
    intro k
    induction k with
    | zero => intro x _; exact ⟨x, rfl, .nil _⟩
    | succ k ih =>
      intro x hx
      obtain ⟨y, q1, q2, q3⟩ := hstep data hl x hx
      obtain ⟨z, p1, p2⟩ := ih y q2
      refine ⟨z, by rw [List.replicate_succ, List.foldlM_cons, q1]; exact p1, ?_⟩
      rw [List.replicate_succ, List.flatten_cons]
      exact q3.append p2
  obtain ⟨⟨N', st'⟩, h1, h2⟩ := hall P.iterations.toNat _ (hard_start N S norm hw hn)
  exact ⟨N', by simp only [Net.generativeHardGD, epochs, h1, Option.map_some], h2⟩

/-- C72, part, for `GenerativeHardBGD`: one step per block of `b` instances (the last may be shorter), with the counts of the MAP traces of the block divided by `b`. -/
theorem C72_bgd_ascent_partial (N : Net ι XR) (S : ι) (P : Params XR) (eta lambda : ℝ) (hP : P.lambda = .fin lambda) (he : 0 ≤ eta) (hla : lambda < 1 / 2) (data : List VarSet) (norm : Bool)
    (b : Nat) (hb : 0 < b) (mo : RangeOrder ι XR) (ho : RangesAll mo) (pick : Nat → ι → Nat → Nat) (hN : HardNet N S) (hso : SiblingOrdered N.ch S) (hw : PosWeights N S)
    (hn : norm = true → DistWeights N S) (hl : ∀ I ∈ data, LeavesEval N S I ∧ LeavesMax N S I) :
    ∃ N' blocks, N.generativeHardBGD S P (.fin eta) data norm b mo pick = some N' ∧ (0 < P.iterations → IsBlocking b data blocks) ∧
      HardRun S eta lambda b norm (List.replicate P.iterations.toNat blocks).flatten N N' := by
  have hall : ∀ (k : Nat) x, HState S norm ((Storer.new : Storer ι XR).newTicket).1 ((Storer.new : Storer ι XR).newTicket.2.newTicket).1 N [] x →
      ∃ y blocks, (List.replicate k ()).foldlM (fun x _ => Net.hbgdEpoch S P (.fin eta) ((Storer.new : Storer ι XR).newTicket).1
        ((Storer.new : Storer ι XR).newTicket.2.newTicket).1 norm b mo pick data x) x = some y ∧ (0 < k → IsBlocking b data blocks) ∧
        HardRun S eta lambda b norm (List.replicate k blocks).flatten x.1 y.1 := by
    intro k
    induction k with
    | zero => intro x _; exact ⟨x, [], rfl, by simp, .nil _⟩
    | succ k ih =>
      intro x h
      obtain ⟨y, q1, q2, q3⟩ := hbgdEpoch_state (ex := True) hP he hla hard_tickets hb ho pick hN (fun _ => hso) data hl h
      obtain ⟨blocks, q4, q5⟩ := q3 trivial
      obtain ⟨z, blocks', p1, p2, p3⟩ := ih y q2
      refine ⟨z, blocks, by rw [List.replicate_succ, List.foldlM_cons, q1]; exact p1, fun _ => q4, ?_⟩
      rw [List.replicate_succ, List.flatten_cons]
      refine q5.append ?_
      cases k with
      | zero => simpa using p3
      | succ k => rw [q4.unique (p2 (by omega))]; exact p3
  obtain ⟨⟨N', st'⟩, blocks, h1, h2, h3⟩ := hall P.iterations.toNat _ (hard_start N S norm hw hn)
  exact ⟨N', blocks, by simp only [Net.generativeHardBGD, epochs, h1, Option.map_some], fun h => h2 (by omega), h3⟩

/-- `mixNet` with one instance meets the conditions. -/
example : HardNet mixNet 0 ∧ SiblingOrdered mixNet.ch 0 ∧ PosWeights mixNet 0 ∧ DistWeights mixNet 0 ∧ LeavesEval mixNet 0 (fun _ => none) ∧ LeavesMax mixNet 0 (fun _ => none) ∧
    RangesAll (someOrder (Fin 7) XR) := by
  refine ⟨⟨mixNet_acyclic, mixNet_decomposable, ?_⟩, mixNet_siblings, ?_, mixNet_weights, discrete_eval mixNet_discrete (fun _ _ _ h => by cases h),
    (mixNet_map (fun _ => none) (fun _ _ _ h => by cases h)).leavesMax, someOrder_all _ _⟩
  · intro n _ ht
    fin_cases n <;> simp [mixNet, Net.ch, Net.type] at ht ⊢
  · intro n _ cs w hk
    fin_cases n <;> simp [mixNet] at hk
    obtain ⟨rfl, rfl⟩ := hk
    exact ⟨by simp, [1 / 4, 3 / 4], by simp, by simp, by norm_num⟩

end Hard

/-! ### A weight that is zero -/

/-- A sum node with weights 0 and 1 over the two indicators of a variable. -/
noncomputable def zeroNet : Net (Fin 3) XR := ⟨![.sum [1, 2] [.fin 0, .fin 1], .leaf (.indicator 0 1), .leaf (.indicator 0 0)]⟩

theorem zeroNet_ch : zeroNet.ch = ![[1, 2], [], []] := by funext i; fin_cases i <;> rfl

theorem zeroNet_ok : HardNet zeroNet 0 ∧ SiblingOrdered zeroNet.ch 0 ∧ IsComplete zeroNet 0 ∧ DistWeights zeroNet 0 ∧ LeavesEval zeroNet 0 (fun _ => some 1) ∧ LeavesMax zeroNet 0 (fun _ => some 1) := by
  refine ⟨⟨⟨![1, 0, 0], ?_⟩, ?_, ?_⟩, ?_, ?_, ?_, ?_, ?_⟩
  · rw [zeroNet_ch]; decide
  · intro n _ cs hk
    fin_cases n <;> simp [zeroNet] at hk
  · intro n _ ht
    fin_cases n <;> simp [zeroNet, Net.ch, Net.type] at ht ⊢
  · intro w _
    have h21 : ¬ Reach zeroNet.ch 2 1 := by
      intro h
      rcases Relation.ReflTransGen.cases_head h with h | ⟨c, h, _⟩
      · exact absurd h (by decide)
      · simp [zeroNet_ch] at h
    rw [zeroNet_ch] at h21 ⊢
    fin_cases w <;> simp
    exact h21
  · intro n _ cs w hk
    have hs : ∀ c : Fin 3, ∀ v, InScope zeroNet c v → v = 0 := by
      rintro c v ⟨m, l, _, h, rfl⟩
      fin_cases m <;> simp [zeroNet] at h <;> subst h <;> rfl
    fin_cases n <;> simp [zeroNet] at hk
    obtain ⟨rfl, rfl⟩ := hk
    intro c hc d hd v hv
    rw [hs c v hv]
    simp at hd
    rcases hd with rfl | rfl
    · exact ⟨1, _, .refl, rfl, rfl⟩
    · exact ⟨2, _, .refl, rfl, rfl⟩
  · intro n _ cs w hk
    fin_cases n <;> simp [zeroNet] at hk
    obtain ⟨rfl, rfl⟩ := hk
    exact ⟨[0, 1], by simp, by simp, by norm_num, by norm_num⟩
  · intro n l _ hk
    fin_cases n <;> simp [zeroNet] at hk <;> subst hk <;> simp [Leaf.value, isLogProb_fin, IsLogProb]
  · intro n l _ hk
    fin_cases n <;> simp [zeroNet] at hk <;> subst hk <;> simp [Leaf.max, isLogProb_fin, IsLogProb]

/-- C72 is false with weights that are zero: on a valid network with the weights 0 and 1 one instance, on which both edges have probability zero, may be counted at the first edge,
where the code divides by the weight; normalisation then makes it NaN. -/
theorem C72_zero_weight_refuted : ∃ (N : Net (Fin 3) XR) (P : Params XR) (I : VarSet) (mo : RangeOrder (Fin 3) XR) (pick : Nat → Fin 3 → Nat → Nat), HardNet N 0 ∧ SiblingOrdered N.ch 0 ∧
    IsComplete N 0 ∧ DistWeights N 0 ∧ LeavesEval N 0 I ∧ LeavesMax N 0 I ∧ RangesAll mo ∧
    ∃ N', N.generativeHardGD 0 P (.fin 1) [I] true mo pick = some N' ∧ N.kind 0 = .sum [1, 2] [.fin 0, .fin 1] ∧ N'.kind 0 = .sum [1, 2] [.nan, .fin 0] := by
  obtain ⟨h1, h2, h3, h4, h5, h6⟩ := zeroNet_ok
  refine ⟨zeroNet, { (Params.default : Params XR) with iterations := 1, lambda := .fin 0 }, fun _ => some 1, someOrder _ _, fun _ _ _ => 0, h1, h2, h3, h4, h5, h6, someOrder_all _ _, ?_⟩
  have k0 : zeroNet.kind 0 = .sum [1, 2] [.fin 0, .fin 1] := rfl
  have k1 : zeroNet.kind 1 = .leaf (.indicator 0 1) := rfl
  have k2 : zeroNet.kind 2 = .leaf (.indicator 0 0) := rfl
  generalize hst : (Storer.new : Storer (Fin 3) XR).newTicket.2.newTicket.2 = st
  generalize hdk : (Storer.new : Storer (Fin 3) XR).newTicket.1 = dtk
  generalize hik : (Storer.new : Storer (Fin 3) XR).newTicket.2.newTicket.1 = itk
  have hd0 : 0 ≤ dtk ∧ 0 ≤ itk ∧ dtk ≠ itk := by subst hdk; subst hik; simp [Storer.newTicket, Storer.new, Storer.makeAt]
  have hwf : st.WF := by subst hst; exact Storer.newTicket_wf (Storer.newTicket_wf Storer.new_wf)
  have hlogs : LogsAt itk st := by
    subst hst; subst hik
    refine ⟨hd0.2.1, by simp [Storer.newTicket, Storer.new, Storer.makeAt, Storer.table], fun n x hx => ?_⟩
    simp [Storer.newTicket, Storer.new, Storer.makeAt, Storer.entry, Table.empty, Table.entry, Function.update_apply] at hx
  have hempty : ∀ n l, st.entry dtk n l = none := by
    intro n l; subst hst; subst hdk
    simp [Storer.newTicket, Storer.new, Storer.makeAt, Storer.entry, Table.empty, Table.entry, Function.update_apply]
  have hdt : st.table dtk ≠ none := by
    subst hst; subst hdk
    simp [Storer.newTicket, Storer.new, Storer.makeAt, Storer.table]
  obtain ⟨r, st1, a1, a2, a3, a4⟩ := storeInference_logs h4.nonneg h5 hwf hlogs
  have hw1 := a2.wf hwf
  have hdt1 : st1.table dtk ≠ none := by rw [a2.table]; exact hdt
  have hu : usedTicket st1 dtk = dtk := by simp [usedTicket, not_lt.2 hd0.1]
  obtain ⟨st2, b1⟩ := C36_returns zeroNet 0 (fun _ => some 1) (fun _ _ => 0) h1.acyclic h1.decomp h1.leaves h4.nonneg h6 st1 hw1 dtk (Or.inr hdt1)
  rw [hu] at b1
  obtain ⟨tab, choice, g1, _, ⟨g3, g3'⟩, g4, _, g6, g7, _⟩ := deriveHard_spec zeroNet 0 (fun _ => some 1) (fun _ _ => 0) h1.acyclic h1.decomp h1.leaves st1 hw1 dtk (Or.inr hdt1) _ st2 b1
  have ho : zeroNet.order 0 = [2, 1, 0] := by rw [Net.order, zeroNet_ch]; decide
  rw [ho] at g1
  have l0 : XR.log (.fin 0) = .ninf := by simp [XR.log]
  have l1 : XR.log (.fin 1) = .fin 0 := by simp [XR.log]
  have t1 : tab 1 = some (.fin 0) ∧ tab 2 = some .ninf := by
    simp [Net.traceTabStep, k0, k1, k2, Leaf.max, weightedMax, l0, l1] at g1
    subst g1
    simp +decide [Function.update_apply]
  have hch : choice 0 = 0 := by
    have hc := (g4 0 _ _ .root k0).2
    simp [traceChoice, t1.1, t1.2, weightedMax, l0, l1, XR.add, tiedChildren, XR.lt, XR.eq] at hc
    exact hc.symm
  have hnl := not_lt.2 hd0.1
  simp only [hnl, if_false] at g6 g7
  have e0 : st2.entry dtk 0 0 = some (.fin 1) := by
    rw [g6 0 0 ⟨.root, rfl, by rw [hch]; rfl⟩, a4 dtk hd0.2.2, hempty]; simp
  have e1 : ∀ n (i : Int), ¬ (n = 0 ∧ i = 0) → st2.entry dtk n i = none := by
    intro n i hni
    rw [g7 n i, a4 dtk hd0.2.2, hempty]
    rintro ⟨_, hs, hi⟩
    refine hni ⟨?_, ?_⟩
    · fin_cases n <;> simp [Net.type, zeroNet] at hs ⊢
    · have : n = 0 := by fin_cases n <;> simp [Net.type, zeroNet] at hs ⊢
      rw [hi, this, hch]; rfl
  have hent : ∀ n m, (st2.deref (st2.table dtk)) n = some m → ∀ i, m i = st2.entry dtk n i := by
    intro n m hm i
    rw [← deref_table]; simp [Table.entry, hm]
  obtain ⟨m, hm⟩ : ∃ m, (st2.deref (st2.table dtk)) 0 = some m := by
    rw [← deref_table] at e0
    cases hm : (st2.deref (st2.table dtk)) 0 with
    | none => simp [Table.entry, hm] at e0
    | some m => exact ⟨m, rfl⟩
  obtain ⟨N', q1, q2, q3⟩ := applyHGD_spec zeroNet 0 (hgdWeight (.fin 1) (.fin 0) (ofInt 1)) true (someOrder_all (Fin 3) XR) st2.next (st2.deref (st2.table dtk)) (by
      intro s _ hs
      have : s = 0 := by fin_cases s <;> simp [Net.type, zeroNet] at hs ⊢
      subst this; exact .refl) (by
      intro s cs w hk m hm i hi
      rw [hent s m hm] at hi
      by_contra hc
      refine hi (e1 s i ?_)
      rintro ⟨rfl, rfl⟩
      rw [k0] at hk; cases hk
      exact hc (by simp))
  refine ⟨N', ?_, rfl, ?_⟩
  · simp only [Net.generativeHardGD, epochs, Int.toNat_one, List.replicate_one, List.foldlM_cons, List.foldlM_nil, Net.hgdInstance, hst, hdk, hik, a1, Option.bind_some, b1, q1, Option.map_some]
    rfl
  · rw [q3 0 _ _ m k0 hm, if_pos rfl]
    have m0 : m 0 = some (.fin 1) := by rw [hent 0 m hm]; exact e0
    have m1 : m 1 = none := by rw [hent 0 m hm]; exact e1 0 1 (by simp)
    have e : rowWeights (hgdWeight (.fin 1) (.fin 0) (ofInt 1)) m [.fin 0, .fin 1] = [.pinf, .fin 1] := by
      simp [rowWeights, m0, m1, hgdWeight, XR.div, XR.mul, XR.add, XR.sub, XR.neg, XR.signedInf]
    have n1 : XR.lt .pinf (.fin 0) = false := rfl
    have n2 : XR.lt (.fin 1) (.fin 0) = false := by simp [XR.lt]
    have n3 : XR.lt (.fin 0) (.fin 0) = false := by simp [XR.lt]
    rw [e]
    simp only [learnNormalize, minZero, divSum, List.foldl_cons, List.foldl_nil, XR.g_ofInt, Int.cast_zero, XR.g_lt, n1, n2, n3, Bool.false_eq_true, if_false, XR.g_add, XR.g_div, XR.add, XR.div,
      List.map_cons, List.map_nil]

end Gospn
