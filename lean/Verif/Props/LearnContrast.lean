import Verif.Proofs.LearnContrast
import Verif.Props.LearnHard
/-
Property C75: hard discriminative learning contrasts MAP traces.
-/
set_option linter.unusedSectionVars false
set_option linter.unusedSimpArgs false
namespace Gospn
open Spec GoFloat

section
variable {ι : Type} [DecidableEq ι] [Fintype ι]

private theorem fresh_batch (N : Net ι XR) (S : ι) (st : Storer ι XR) (k : Int) (h0 : 0 ≤ k) (ht : st.table k ≠ none) (he : ∀ n i, st.entry k n i = none) : HBatch N S k st [] :=
  ⟨h0, ht, by simp, fun n j _ h => absurd rfl h, fun n l _ => he n l⟩

/-- C75, part: on acyclic decomposable networks in which no child is reachable from a sibling listed after it, with positive weights and instances that have every variable of `Y`, `DiscriminativeHardGD`
takes for every instance in turn, as many times over the data set as `P.Iterations` says, one contrastive step between a MAP trace of the instance and one of the instance without `Y`, and the data set
is as it was; this as long as the steps leave positive weights. Missing: other networks (C36), and what happens after a weight is zero or negative (`C75_refuted`). -/
theorem C75_gd_partial (N : Net ι XR) (S : ι) (P : Params XR) (eta lambda : ℝ) (hP : P.lambda = .fin lambda) (D : List VarSet) (Y : List Int) (norm : Bool) (mo : RangeOrder ι XR) (ho : RangesAll mo)
    (pick : Nat → ι → Nat → Nat) (hN : HardNet N S) (hso : SiblingOrdered N.ch S) (hD : ∀ I ∈ D, CanRestore Y I ∧ LeavesMax N S I ∧ LeavesMax N S (hide Y I)) :
    (∃ N', N.discriminativeHardGD S P (.fin eta) D Y norm mo pick = some (N', D) ∧ ContrastRun S eta lambda 1 norm Y ((List.replicate P.iterations.toNat D).flatten.map ([·])) N N') ∨
    ∃ pre post N1, (List.replicate P.iterations.toNat D).flatten.map ([·]) = pre ++ post ∧ post ≠ [] ∧ ContrastRun S eta lambda 1 norm Y pre N N1 ∧ ¬ PosWeights N1 S := by
  have hD' : ∀ I ∈ D, HardInst N S Y I := fun I hI => ⟨(hD I hI).2.1, (hD I hI).2.2, (hD I hI).1⟩
  have hst : CState S ((Storer.new : Storer ι XR).newTicket).1 ((Storer.new : Storer ι XR).newTicket.2.newTicket).1 N [] [] (N, ((Storer.new : Storer ι XR).newTicket.2.newTicket).2) := by
    refine ⟨.refl _ _, Storer.newTicket_wf (Storer.newTicket_wf Storer.new_wf), fresh_batch _ _ _ _ ?_ ?_ ?_, fresh_batch _ _ _ _ ?_ ?_ ?_⟩ <;>
      simp [Storer.newTicket, Storer.new, Storer.makeAt, Storer.table, Storer.entry, Table.empty, Table.entry, Function.update_apply]
  have hne : ((Storer.new : Storer ι XR).newTicket).1 ≠ ((Storer.new : Storer ι XR).newTicket.2.newTicket).1 := by simp [Storer.newTicket, Storer.new, Storer.makeAt]
  rcases dhgd_epochs (eta := eta) (norm := norm) hP hne ho pick hN hso hD' P.iterations.toNat _ hst with ⟨y, h1, h2⟩ | h
  · exact Or.inl ⟨y.1, by simp only [Net.discriminativeHardGD, epochs, h1, Option.map_some], h2⟩
  · exact Or.inr h

/-- C75, part, for `DiscriminativeHardBGD` with a positive batch size `b`: one step per block of `b` instances of the data set repeated `P.Iterations` times (blocks go on from one iteration to the next;
only the very last may be shorter), with the counts divided by `b`. -/
theorem C75_bgd_partial (N : Net ι XR) (S : ι) (P : Params XR) (eta lambda : ℝ) (hP : P.lambda = .fin lambda) (D : List VarSet) (Y : List Int) (norm : Bool) (b : Nat) (hb : 0 < b)
    (mo : RangeOrder ι XR) (ho : RangesAll mo) (pick : Nat → ι → Nat → Nat) (hN : HardNet N S) (hso : SiblingOrdered N.ch S) (hw : PosWeights N S)
    (hD : ∀ I ∈ D, CanRestore Y I ∧ LeavesMax N S I ∧ LeavesMax N S (hide Y I) ∧ LeavesEval N S I) :
    ∃ blocks, IsBlocking b (List.replicate P.iterations.toNat D).flatten blocks ∧
      ((∃ N', N.discriminativeHardBGD S P (.fin eta) D Y norm b mo pick = some (N', D) ∧ ContrastRun S eta lambda b norm Y blocks N N') ∨
      ∃ pre post N1, blocks = pre ++ post ∧ post ≠ [] ∧ ContrastRun S eta lambda b norm Y pre N N1 ∧ ¬ PosWeights N1 S) := by
  have hD' : ∀ I ∈ D, HardInst N S Y I ∧ LeavesEval N S I := fun I hI => ⟨⟨(hD I hI).2.1, (hD I hI).2.2.1, (hD I hI).1⟩, (hD I hI).2.2.2⟩
  generalize hd : ((Storer.new : Storer ι XR).newTicket).1 = d
  generalize hp : ((Storer.new : Storer ι XR).newTicket.2.newTicket).1 = p
  generalize hu : ((Storer.new : Storer ι XR).newTicket.2.newTicket.2.newTicket).1 = u
  generalize hs : ((Storer.new : Storer ι XR).newTicket.2.newTicket.2.newTicket).2 = st0
  have hne : d ≠ p ∧ d ≠ u ∧ p ≠ u := by subst hd; subst hp; subst hu; simp [Storer.newTicket, Storer.new, Storer.makeAt]
  have hst : CBState S eta lambda b norm Y d p u N [] ((N, st0), 0) := by
    subst hd; subst hp; subst hu; subst hs
    refine ⟨rfl, ⟨?_, ?_, fun n x hx => ?_⟩, [], [], [], [], rfl, by simp, by simpa using hb, .nil _, ⟨.refl _ _, Storer.newTicket_wf (Storer.newTicket_wf (Storer.newTicket_wf Storer.new_wf)),
      fresh_batch _ _ _ _ ?_ ?_ ?_, fresh_batch _ _ _ _ ?_ ?_ ?_⟩, .nil, .nil⟩
    any_goals simp [Storer.newTicket, Storer.new, Storer.makeAt, Storer.table, Storer.entry, Table.empty, Table.entry, Function.update_apply]
    simp [Storer.newTicket, Storer.new, Storer.makeAt, Storer.table, Storer.entry, Table.empty, Table.entry, Function.update_apply] at hx
  have hspoilt : SpoiltBy S eta lambda b norm Y (List.replicate P.iterations.toNat D).flatten N → ∃ blocks, IsBlocking b (List.replicate P.iterations.toNat D).flatten blocks ∧
      ∃ pre post N1, blocks = pre ++ post ∧ post ≠ [] ∧ ContrastRun S eta lambda b norm Y pre N N1 ∧ ¬ PosWeights N1 S := by
    rintro ⟨pre, rest, N1, h1, h0, h2, h3, h4⟩
    obtain ⟨post, hpost⟩ := blocking_exists hb rest.length rest le_rfl
    exact ⟨pre ++ post, by rw [h1]; exact blocking_append hb h2 hpost, pre, post, N1, rfl, by rintro rfl; exact h0 (by simpa using hpost.1.symm), h3, h4⟩
  rcases dhbgd_epochs hP hne.1 hne.2.1 hne.2.2 hb ho pick hN hso hD' P.iterations.toNat _ _ hst with ⟨⟨⟨N1, st1⟩, i⟩, h1, hc, hv, blocks, cur, chs, chs', hdone, hbl, hcur, hrun, hS, hg, hg'⟩ | h
  · rw [List.nil_append] at hc hdone
    dsimp only at hc hrun hS hg hg'
    have hlen : (List.replicate P.iterations.toNat D).flatten.length = blocks.length * b + cur.length := by
      rw [hdone, List.length_append, List.length_flatten, List.map_congr_left hbl]
      simp
    have hdvd : b ∣ (List.replicate P.iterations.toNat D).flatten.length ↔ cur = [] := by
      rw [hlen, Nat.dvd_add_right (Nat.dvd_mul_left _ _)]
      constructor
      · intro hdv
        exact List.length_eq_zero_iff.1 (Nat.eq_zero_of_dvd_of_lt hdv hcur)
      · rintro rfl; simp
    have hgo : goDvd i b = some (decide (cur = [])) := by
      rw [hc, goDvd_nat _ _ hb]; simp only [hdvd]
    by_cases hcur0 : cur = []
    · refine ⟨blocks, ?_, Or.inl ⟨N1, ?_, hrun⟩⟩
      · have := blocking_append (post := []) (rest := ([] : List VarSet)) hb hbl ⟨rfl, by simp, by simp⟩
        rw [hdone, hcur0]; simpa using this
      · simp only [Net.discriminativeHardBGD, hd, hp, hu, hs, epochs, h1, Option.bind_some, hgo, decide_eq_true_eq, if_pos hcur0, Option.map_some]
    · by_cases hw1 : PosWeights N1 S
      · obtain ⟨y, q1, q2, q3, _⟩ := contrast_close (eta := eta) (norm := norm) hP hb hne.1 ho hS hw1
        refine ⟨blocks ++ [cur], ?_, Or.inl ⟨y.1, ?_, hrun.append (.cons _ _ hg hg' q3 (.nil _))⟩⟩
        · rw [hdone]
          exact blocking_append hb hbl ⟨by simp, by simpa using ⟨hcur0, hcur.le⟩, by simp⟩
        · simp only [Net.discriminativeHardBGD, hd, hp, hu, hs, epochs, h1, Option.bind_some, hgo, decide_eq_true_eq, if_neg hcur0, q1, Option.map_some]
      · obtain ⟨bl, k1, k2⟩ := hspoilt ⟨blocks, cur, N1, hdone, hcur0, hbl, hrun, hw1⟩
        exact ⟨bl, k1, Or.inr k2⟩
  · rw [List.nil_append] at h
    obtain ⟨bl, k1, k2⟩ := hspoilt h
    exact ⟨bl, k1, Or.inr k2⟩

end

/-! ### A weight that becomes NaN -/

/-- A sum node with weights 1/4 and 3/4 over an indicator and a sum node with one child, the other indicator. -/
noncomputable def forkNet : Net (Fin 4) XR := ⟨![.sum [1, 2] [.fin (1 / 4), .fin (3 / 4)], .leaf (.indicator 0 1), .sum [3] [.fin 1], .leaf (.indicator 0 0)]⟩

theorem forkNet_ch : forkNet.ch = ![[1, 2], [], [3], []] := by funext i; fin_cases i <;> rfl

theorem forkNet_ok : HardNet forkNet 0 ∧ SiblingOrdered forkNet.ch 0 ∧ IsComplete forkNet 0 ∧ DistWeights forkNet 0 ∧ PosWeights forkNet 0 ∧
    ∀ I, LeavesEval forkNet 0 I ∧ LeavesMax forkNet 0 I := by
  refine ⟨⟨⟨![2, 0, 1, 0], ?_⟩, ?_, ?_⟩, ?_, ?_, ?_, ?_, fun I => ⟨?_, ?_⟩⟩
  · rw [forkNet_ch]; decide
  · intro n _ cs hk
    fin_cases n <;> simp [forkNet] at hk
  · intro n _ ht
    fin_cases n <;> simp [forkNet, Net.ch, Net.type] at ht ⊢
  · intro w _
    have h21 : ¬ Reach forkNet.ch 2 1 := by
      intro h
      rcases Relation.ReflTransGen.cases_head h with h | ⟨c, h, h'⟩
      · exact absurd h (by decide)
      · simp [forkNet_ch] at h
        subst h
        rcases Relation.ReflTransGen.cases_head h' with h | ⟨c, h, _⟩
        · exact absurd h (by decide)
        · simp [forkNet_ch] at h
    rw [forkNet_ch] at h21 ⊢
    fin_cases w <;> simp
    exact h21
  · intro n _ cs w hk
    have hs : ∀ c : Fin 4, ∀ v, InScope forkNet c v → v = 0 := by
      rintro c v ⟨m, l, _, h, rfl⟩
      fin_cases m <;> simp [forkNet] at h <;> subst h <;> rfl
    fin_cases n <;> simp [forkNet] at hk
    · obtain ⟨rfl, rfl⟩ := hk
      intro c hc d hd v hv
      rw [hs c v hv]
      simp at hd
      rcases hd with rfl | rfl
      · exact ⟨1, _, .refl, rfl, rfl⟩
      · exact ⟨3, _, .single (by simp [forkNet_ch]), rfl, rfl⟩
    · obtain ⟨rfl, rfl⟩ := hk
      intro c hc d hd v hv
      rw [hs c v hv]
      simp at hd
      subst hd
      exact ⟨3, _, .refl, rfl, rfl⟩
  · intro n _ cs w hk
    fin_cases n <;> simp [forkNet] at hk <;> obtain ⟨rfl, rfl⟩ := hk
    · exact ⟨[1 / 4, 3 / 4], by simp, by simp, by norm_num, by norm_num⟩
    · exact ⟨[1], by simp, by simp, by norm_num, by norm_num⟩
  · intro n _ cs w hk
    fin_cases n <;> simp [forkNet] at hk <;> obtain ⟨rfl, rfl⟩ := hk
    · exact ⟨by simp, [1 / 4, 3 / 4], by simp, by simp, by norm_num⟩
    · exact ⟨by simp, [1], by simp, by simp, by norm_num⟩
  · intro n l _ hk
    fin_cases n <;> simp [forkNet] at hk <;> subst hk <;> simp only [Leaf.value] <;> split <;> (try split) <;> simp [isLogProb_fin, IsLogProb]
  · intro n l _ hk
    fin_cases n <;> simp [forkNet] at hk <;> subst hk <;> simp only [Leaf.max] <;> split <;> (try split) <;> simp [isLogProb_fin, IsLogProb]

/-- `forkNet` with the instance that gives variable 0 the value 1, which is the query variable, meets the conditions of the theorems above. -/
example : HardNet forkNet 0 ∧ SiblingOrdered forkNet.ch 0 ∧ PosWeights forkNet 0 ∧ RangesAll (someOrder (Fin 4) XR) ∧ CanRestore [0] (fun _ => some 1) ∧
    LeavesMax forkNet 0 (fun _ => some 1) ∧ LeavesMax forkNet 0 (hide [0] fun _ => some 1) ∧ LeavesEval forkNet 0 (fun _ => some 1) := by
  obtain ⟨h1, h2, _, _, h5, h6⟩ := forkNet_ok
  exact ⟨h1, h2, h5, someOrder_all _ _, fun u hu => ⟨1, rfl, Or.inl (by simp at hu; simp [hu])⟩, (h6 _).2, (h6 _).2, (h6 _).1⟩

theorem forkNet_max {I : VarSet} {q : Fin 4 → ℝ} (hq : IsMaxValuation forkNet 0 I q) {x y : ℝ} (hx : ∀ z, (Leaf.indicator 0 1 : Leaf XR).max I = some z → unlog z = x)
    (hy : ∀ z, (Leaf.indicator 0 0 : Leaf XR).max I = some z → unlog z = y) : q 1 = x ∧ q 3 = y ∧ q 2 = y ∧ (q 0 = 1 / 4 * x ∨ q 0 = 3 / 4 * y) ∧ 1 / 4 * x ≤ q 0 ∧ 3 / 4 * y ≤ q 0 := by
  have r1 : Reach forkNet.ch 0 1 := .single (by simp [forkNet_ch])
  have r2 : Reach forkNet.ch 0 2 := .single (by simp [forkNet_ch])
  have r3 : Reach forkNet.ch 0 3 := r2.tail (by simp [forkNet_ch])
  obtain ⟨z1, a1, _, a2⟩ := hq 1 r1
  obtain ⟨z3, b1, _, b2⟩ := hq 3 r3
  obtain ⟨⟨j, c, a, c1, c2, c3⟩, _⟩ := hq 2 r2
  have e1 : q 1 = x := by rw [a2, hx z1 a1]
  have e3 : q 3 = y := by rw [b2, hy z3 b1]
  have e2 : q 2 = y := by
    cases j with
    | zero =>
      simp only [List.getElem?_cons_zero, Option.some.injEq, XR.fin.injEq] at c1 c2
      subst c1; subst c2
      rw [c3, e3]; ring
    | succ j => simp at c1
  obtain ⟨⟨j, c, a, d1, d2, d3⟩, hle⟩ := hq 0 .refl
  refine ⟨e1, e3, e2, ?_, ?_, ?_⟩
  · match j with
    | 0 =>
      simp only [List.getElem?_cons_zero, Option.some.injEq, XR.fin.injEq] at d1 d2
      subst d1; subst d2
      exact Or.inl (by rw [d3, e1])
    | 1 =>
      simp only [List.getElem?_cons_succ, List.getElem?_cons_zero, Option.some.injEq, XR.fin.injEq] at d1 d2
      subst d1; subst d2
      exact Or.inr (by rw [d3, e2])
    | j + 2 => simp at d1
  · exact hle ⟨0, 1, 1 / 4, rfl, rfl, by rw [e1]⟩
  · exact hle ⟨1, 2, 3 / 4, rfl, rfl, by rw [e2]⟩

/-- C75, that learning keeps probability vectors, is false: on a valid network with positive weights and probability vectors, one iteration over one instance with the learning rate 1 and
normalisation makes the weight of a sum node with one child NaN. The trace without the label goes through it, the other does not; its weight 1 becomes 0, and the code divides by the sum. -/
theorem C75_refuted : ∃ (N : Net (Fin 4) XR) (P : Params XR) (I : VarSet) (mo : RangeOrder (Fin 4) XR) (pick : Nat → Fin 4 → Nat → Nat), HardNet N 0 ∧ SiblingOrdered N.ch 0 ∧ IsComplete N 0 ∧
    DistWeights N 0 ∧ PosWeights N 0 ∧ CanRestore [0] I ∧ LeavesEval N 0 I ∧ LeavesMax N 0 I ∧ RangesAll mo ∧
    ∃ N', N.discriminativeHardGD 0 P (.fin 1) [I] [0] true mo pick = some (N', [I]) ∧ N.kind 2 = .sum [3] [.fin 1] ∧ N'.kind 2 = .sum [3] [.nan] := by
  obtain ⟨h1, h2, h3, h4, h5, h6⟩ := forkNet_ok
  have hcan : CanRestore [0] (fun _ => some 1) := fun u hu => ⟨1, rfl, Or.inl (by simp at hu; simp [hu])⟩
  refine ⟨forkNet, { (Params.default : Params XR) with iterations := 1, lambda := .fin 0 }, fun _ => some 1, someOrder _ _, fun _ _ _ => 0, h1, h2, h3, h4, h5, hcan, (h6 _).1, (h6 _).2,
    someOrder_all _ _, ?_⟩
  have key := C75_gd_partial forkNet 0 { (Params.default : Params XR) with iterations := 1, lambda := .fin 0 } 1 0 rfl [fun _ => some 1] [0] true (someOrder _ _) (someOrder_all _ _) (fun _ _ _ => 0) h1 h2
    (by intro I hI; simp at hI; subst hI; exact ⟨hcan, (h6 _).2, (h6 _).2⟩)
  simp only [Int.toNat_one, List.replicate_one, List.flatten_cons, List.flatten_nil, List.append_nil, List.map_cons, List.map_nil] at key
  rcases key with ⟨N', k1, k2⟩ | ⟨pre, post, N1, k1, k2, k3, k4⟩
  swap
  · exfalso
    cases pre with
    | nil => cases k3; exact k4 h5
    | cons a pre =>
      simp only [List.cons_append, List.cons.injEq] at k1
      have := k1.2.symm
      simp only [List.append_eq_nil_iff] at this
      exact k2 this.2
  refine ⟨N', k1, rfl, ?_⟩
  cases k2 with
  | cons chs chs' f1 f2 hup hrest =>
    cases hrest
    cases f1 with
    | cons t1 f1 =>
    cases f1
    cases f2 with
    | cons t2 f2 =>
    cases f2
    rename_i ch ch'
    have k0 : forkNet.kind 0 = .sum [1, 2] [.fin (1 / 4), .fin (3 / 4)] := rfl
    have kk2 : forkNet.kind 2 = .sum [3] [.fin 1] := rfl
    -- the trace with the label goes to the indicator
    obtain ⟨q, hq, hc⟩ := t1
    obtain ⟨e1, e3, e2, e0, e4, e5⟩ := forkNet_max hq (x := 1) (y := 0) (by intro z hz; simp [Leaf.max] at hz; subst hz; simp) (by intro z hz; simp [Leaf.max] at hz; subst hz; simp)
    obtain ⟨c, a, c1, c2, c3⟩ := hc 0 _ _ .root k0
    have hch : ch 0 = 0 := by
      match hj : ch 0 with
      | 0 => rfl
      | 1 =>
        rw [hj] at c1 c2
        simp only [List.getElem?_cons_succ, List.getElem?_cons_zero, Option.some.injEq, XR.fin.injEq] at c1 c2
        subst c1; subst c2
        rw [e2] at c3
        exfalso
        linarith
      | j + 2 => rw [hj] at c1; simp at c1
    have hnot : ∀ n, OnTrace forkNet ch 0 n → n = 0 ∨ n = 1 := by
      intro n hn
      induction hn with
      | root => exact Or.inl rfl
      | product _ hk _ ih =>
        rcases ih with rfl | rfl
        · rw [k0] at hk; cases hk
        · simp [forkNet] at hk
      | sum _ hk hc' ih =>
        rcases ih with rfl | rfl
        · rw [k0] at hk; cases hk
          rw [hch] at hc'
          simp at hc'
          exact Or.inr hc'.symm
        · simp [forkNet] at hk
    -- the other goes to the sum node
    obtain ⟨q', hq', hc'⟩ := t2
    obtain ⟨g1, g3, g2, g0, g4, g5⟩ := forkNet_max hq' (x := 1) (y := 1) (by intro z hz; simp [Leaf.max, hide] at hz; subst hz; simp) (by intro z hz; simp [Leaf.max, hide] at hz; subst hz; simp)
    obtain ⟨d, b, d1, d2, d3⟩ := hc' 0 _ _ .root k0
    have hch' : ch' 0 = 1 := by
      match hj : ch' 0 with
      | 0 =>
        rw [hj] at d1 d2
        simp only [List.getElem?_cons_zero, Option.some.injEq, XR.fin.injEq] at d1 d2
        subst d1; subst d2
        rw [g1] at d3
        exfalso
        linarith
      | 1 => rfl
      | j + 2 => rw [hj] at d1; simp at d1
    have hon : OnTrace forkNet ch' 0 2 := .sum .root k0 (by rw [hch']; rfl)
    obtain ⟨d', b', w1, w2, w3⟩ := hc' 2 _ _ hon kk2
    have hch2 : ch' 2 = 0 := by
      match hj : ch' 2 with
      | 0 => rfl
      | j + 1 => rw [hj] at w1; simp at w1
    have hh : ∀ j, hits forkNet 0 [ch] 2 j = 0 := by
      intro j
      by_contra hne
      obtain ⟨x, hx, ho, _⟩ := hits_pos hne
      simp at hx; subst hx
      rcases hnot 2 ho with h | h <;> exact absurd h (by decide)
    have hh' : hits forkNet 0 [ch'] 2 0 = 1 := by
      classical
      have := hits_append forkNet 0 [] ch' 2 0
      rw [List.nil_append] at this
      rw [this, if_pos ⟨hon, hch2⟩]
      simp [hits]
    obtain ⟨_, hup⟩ := hup
    obtain ⟨_, hup⟩ := hup 2 (.single (by simp [forkNet_ch])) _ _ kk2
    obtain ⟨r, r', u1, u2, _, _, u5, u6⟩ := hup ⟨0, Or.inr (by rw [hh']; norm_num)⟩
    have hr : r = [1] := (fin_map_injective (by simpa using u1) : ([1] : List ℝ) = r).symm
    subst hr
    have := u6 0 1 rfl
    rw [hh, hh', if_neg (by norm_num)] at this
    obtain ⟨a', rfl⟩ : ∃ a', r' = [a'] := List.length_eq_one_iff.1 (by simpa using u2)
    simp at this
    subst this
    have := u5 rfl (by norm_num [shiftNonneg, minOrZero])
    simpa using this

end Gospn
