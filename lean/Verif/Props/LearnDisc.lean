import Verif.Proofs.LearnDisc
/-
Property C101: what soft discriminative learning does from beginning to end.
-/
set_option linter.unusedSectionVars false
set_option linter.unusedSimpArgs false
namespace Gospn
open Spec GoFloat

section
variable {ι : Type} [DecidableEq ι] [Fintype ι]

/-- C101, part: on acyclic networks with a sum node as root, in which no child is reachable from a sibling listed after it and sum nodes have children, and with instances that have every variable of `Y`,
`DiscriminativeGD` takes one step at the root for every instance in turn, as many times over the data set as `P.Iterations` says, and the data set is as it was; this as long as no step leaves a negative
weight or NaN and no instance is impossible. Missing: that the steps move the other sum nodes, and all weights by the conditional gradient (`C101_refuted`). -/
theorem C101_gd_partial (N : Net ι XR) (S : ι) (P : Params XR) (eta lambda : ℝ) (hP : P.lambda = .fin lambda) (D : List VarSet) (Y : List Int) (norm : Bool) (hac : Acyclic N.ch)
    (hso : SiblingOrdered N.ch S) (hroot : N.type S = .sum) (hsums : ∀ n cs w, N.kind n = .sum cs w → cs ≠ [])
    (hD : ∀ I ∈ D, CanRestore Y I ∧ LeavesEval N S I ∧ LeavesEval N S (hide Y I)) :
    (∃ N', N.discriminativeGD S P (.fin eta) D Y norm = some (N', D) ∧ RootRun S eta lambda 1 norm Y ((List.replicate P.iterations.toNat D).flatten.map ([·])) N N') ∨
    ∃ pre B post N1, (List.replicate P.iterations.toNat D).flatten.map ([·]) = pre ++ B :: post ∧ RootRun S eta lambda 1 norm Y pre N N1 ∧ Blocked N1 S Y B := by
  have hN : RootNet N S := ⟨hac, hso, by
    cases hk : N.kind S with
    | sum cs w => simpa [Net.ch, hk] using hsums S cs w hk
    | product cs => simp [Net.type, hk] at hroot
    | leaf l => simp [Net.type, hk] at hroot, hsums, hroot⟩
  have hD' : ∀ I ∈ D, RootInst N S Y I := fun I hI => ⟨(hD I hI).2.1, (hD I hI).2.2, (hD I hI).1⟩
  generalize hs : ((Storer.new : Storer ι XR).newTicket).1 = s
  generalize hd : ((Storer.new : Storer ι XR).newTicket.2.newTicket).1 = d
  generalize hw : ((Storer.new : Storer ι XR).newTicket.2.newTicket.2.newTicket).1 = w
  generalize hz : ((Storer.new : Storer ι XR).newTicket.2.newTicket.2.newTicket.2.newTicket).1 = z
  generalize hp : ((Storer.new : Storer ι XR).newTicket.2.newTicket.2.newTicket.2.newTicket.2.newTicket).1 = p
  generalize hu : ((Storer.new : Storer ι XR).newTicket.2.newTicket.2.newTicket.2.newTicket.2.newTicket.2.newTicket).1 = u
  generalize ht : ((Storer.new : Storer ι XR).newTicket.2.newTicket.2.newTicket.2.newTicket.2.newTicket.2.newTicket).2 = st
  have h6 : Six s d w z p u st := by
    refine ⟨?_, ?_, ?_⟩
    · rw [← ht]; exact Storer.newTicket_wf (Storer.newTicket_wf (Storer.newTicket_wf (Storer.newTicket_wf (Storer.newTicket_wf (Storer.newTicket_wf Storer.new_wf)))))
    · rw [← hs, ← hd, ← hw, ← hz, ← hp, ← hu]
      simp [Storer.newTicket, Storer.new, Storer.makeAt]
    · intro k hk
      rw [← hs, ← hd, ← hw, ← hz, ← hp, ← hu] at hk
      rw [← ht]
      simp only [List.mem_cons, List.not_mem_nil, or_false, Storer.newTicket, Storer.new, Storer.makeAt] at hk
      rcases hk with rfl | rfl | rfl | rfl | rfl | rfl <;>
        refine ⟨by simp, ?_, ?_⟩ <;> simp [Storer.newTicket, Storer.new, Storer.makeAt, Storer.table, Storer.entry, Table.empty, Table.entry, Function.update_apply]
  rcases dgd_rounds (eta := eta) (norm := norm) hP hN hD' P.iterations.toNat N st (.refl _ _) h6 with ⟨N', st', h1, h2⟩ | h
  · exact Or.inl ⟨N', by simp only [Net.discriminativeGD, hs, hd, hw, hz, hp, hu, ht, epochs, h1, Option.map_some], h2⟩
  · exact Or.inr h

/-- C101, part, for `DiscriminativeBGD` with a positive batch size `b`: one step per block of `b` instances of the data set repeated `P.Iterations` times (blocks go on from one iteration to the next;
only the very last may be shorter), with what the instances add divided by `b`. -/
theorem C101_bgd_partial (N : Net ι XR) (S : ι) (P : Params XR) (eta lambda : ℝ) (hP : P.lambda = .fin lambda) (D : List VarSet) (Y : List Int) (norm : Bool) (b : Nat) (hb : 0 < b)
    (mo : RangeOrder ι XR) (ho : RangesAll mo) (hac : Acyclic N.ch) (hso : SiblingOrdered N.ch S) (hroot : N.type S = .sum) (hsums : ∀ n cs w, N.kind n = .sum cs w → cs ≠ [])
    (hD : ∀ I ∈ D, CanRestore Y I ∧ LeavesEval N S I ∧ LeavesEval N S (hide Y I)) :
    ∃ blocks, IsBlocking b (List.replicate P.iterations.toNat D).flatten blocks ∧
      ((∃ N', N.discriminativeBGD S P (.fin eta) D Y norm b mo = some (N', D) ∧ RootRun S eta lambda b norm Y blocks N N') ∨
      ∃ pre B post N1, blocks = pre ++ B :: post ∧ RootRun S eta lambda b norm Y pre N N1 ∧ Blocked N1 S Y B) := by
  have hN : RootNet N S := ⟨hac, hso, by
    cases hk : N.kind S with
    | sum cs w => simpa [Net.ch, hk] using hsums S cs w hk
    | product cs => simp [Net.type, hk] at hroot
    | leaf l => simp [Net.type, hk] at hroot, hsums, hroot⟩
  have hD' : ∀ I ∈ D, RootInst N S Y I := fun I hI => ⟨(hD I hI).2.1, (hD I hI).2.2, (hD I hI).1⟩
  generalize hs : ((Storer.new : Storer ι XR).newTicket).1 = s
  generalize hd : ((Storer.new : Storer ι XR).newTicket.2.newTicket).1 = d
  generalize hw : ((Storer.new : Storer ι XR).newTicket.2.newTicket.2.newTicket).1 = w
  generalize hz : ((Storer.new : Storer ι XR).newTicket.2.newTicket.2.newTicket.2.newTicket).1 = z
  generalize hp : ((Storer.new : Storer ι XR).newTicket.2.newTicket.2.newTicket.2.newTicket.2.newTicket).1 = p
  generalize hu : ((Storer.new : Storer ι XR).newTicket.2.newTicket.2.newTicket.2.newTicket.2.newTicket.2.newTicket).1 = u
  generalize hl : ((Storer.new : Storer ι XR).newTicket.2.newTicket.2.newTicket.2.newTicket.2.newTicket.2.newTicket.2.newTicket).1 = l
  generalize ht : ((Storer.new : Storer ι XR).newTicket.2.newTicket.2.newTicket.2.newTicket.2.newTicket.2.newTicket.2.newTicket).2 = st
  have hblank : ∀ k ∈ [s, d, w, z, p, u, l], Blank k st := by
    intro k hk
    rw [← hs, ← hd, ← hw, ← hz, ← hp, ← hu, ← hl] at hk
    rw [← ht]
    simp only [List.mem_cons, List.not_mem_nil, or_false, Storer.newTicket, Storer.new, Storer.makeAt] at hk
    rcases hk with rfl | rfl | rfl | rfl | rfl | rfl | rfl <;>
      refine ⟨by simp, ?_, ?_⟩ <;> simp [Storer.newTicket, Storer.new, Storer.makeAt, Storer.table, Storer.entry, Table.empty, Table.entry, Function.update_apply]
  have h6 : Six s d w z p u st := by
    refine ⟨?_, ?_, fun k hk => hblank k (by simp at hk ⊢; tauto)⟩
    · rw [← ht]; exact Storer.newTicket_wf (Storer.newTicket_wf (Storer.newTicket_wf (Storer.newTicket_wf (Storer.newTicket_wf (Storer.newTicket_wf (Storer.newTicket_wf Storer.new_wf))))))
    · rw [← hs, ← hd, ← hw, ← hz, ← hp, ← hu]
      simp [Storer.newTicket, Storer.new, Storer.makeAt]
  have hln : l ∉ [s, d, w, z, p, u] := by
    rw [← hs, ← hd, ← hw, ← hz, ← hp, ← hu, ← hl]
    simp [Storer.newTicket, Storer.new, Storer.makeAt]
  have h0 : DBState S eta lambda b norm Y s d w z p u l N [] ((N, st), 0) :=
    ⟨rfl, h6, .refl _ _, [], [], rfl, by simp, by simpa using hb, by simp, .nil _, (hblank l (by simp)).gains, fun h => absurd rfl h⟩
  rcases dbgd_rounds hP hb ho hln hN hD' P.iterations.toNat _ _ h0 with ⟨⟨⟨N1, st1⟩, i⟩, h1, hc, h6', hsh, blocks, cur, hdone, hbl, hcur, hinst, hrun, hg, hready⟩ | h
  · rw [List.nil_append] at hc hdone
    dsimp only at hc hrun hg hready hsh h6'
    have hlen : (List.replicate P.iterations.toNat D).flatten.length = blocks.length * b + cur.length := by
      rw [hdone, List.length_append, List.length_flatten, List.map_congr_left hbl]
      simp
    have hdvd : b ∣ (List.replicate P.iterations.toNat D).flatten.length ↔ cur = [] := by
      rw [hlen, Nat.dvd_add_right (Nat.dvd_mul_left _ _)]
      constructor
      · intro hdv
        exact List.length_eq_zero_iff.1 (Nat.eq_zero_of_dvd_of_lt hdv hcur)
      · rintro rfl; simp
    have hgo : goDvd i b = some (decide (cur = [])) := by
      rw [hc, goDvd_nat _ _ hb]; simp only [hdvd]
    by_cases hcur0 : cur = []
    · refine ⟨blocks, ?_, Or.inl ⟨N1, ?_, hrun⟩⟩
      · have := blocking_append (post := []) (rest := ([] : List VarSet)) hb hbl ⟨rfl, by simp, by simp⟩
        rw [hdone, hcur0]; simpa using this
      · simp only [Net.discriminativeBGD, hs, hd, hw, hz, hp, hu, hl, ht, epochs, h1, Option.bind_some, hgo, decide_eq_true_eq, if_pos hcur0, Option.map_some]
    · obtain ⟨N', q1, q2, q3⟩ := dbgd_close (eta := eta) (norm := norm) (mo := mo) hP hb ho (hN.of hsh) (fun I hI => (hinst I hI).of hsh) (hready hcur0) hcur0 h6'.wf hg
      refine ⟨blocks ++ [cur], ?_, Or.inl ⟨N', ?_, hrun.append (.cons q2 (.nil _))⟩⟩
      · rw [hdone]
        exact blocking_append hb hbl ⟨by simp, by simpa using ⟨hcur0, hcur.le⟩, by simp⟩
      · simp only [Net.discriminativeBGD, hs, hd, hw, hz, hp, hu, hl, ht, epochs, h1, Option.bind_some, hgo, decide_eq_true_eq, if_neg hcur0, q1, Option.map_some]
  · rw [List.nil_append] at h
    obtain ⟨bl, k1, k2⟩ := h.halted hb
    exact ⟨bl, k1, Or.inr k2⟩

end

/-! ### A weight that should move and does not -/

/-- A sum node with weights 1/2 and 1/2 over the two indicators of variable 0. -/
noncomputable def flipNet : Net (Fin 3) XR := ⟨![.sum [1, 2] [.fin (1 / 2), .fin (1 / 2)], .leaf (.indicator 0 1), .leaf (.indicator 0 0)]⟩

/-- Variable 0 is 0. -/
def flipInst : VarSet := fun u => if u = 0 then some 0 else none

theorem flipNet_ch : flipNet.ch = ![[1, 2], [], []] := by funext i; fin_cases i <;> rfl

theorem flipNet_acyclic : Acyclic flipNet.ch := by
  rw [flipNet_ch]
  exact ⟨![1, 0, 0], by decide⟩

theorem flipNet_siblings : SiblingOrdered flipNet.ch 0 := by
  intro w _
  have h21 : ¬ Reach flipNet.ch 2 1 := by
    intro h
    rcases Relation.ReflTransGen.cases_head h with h | ⟨c, h, h'⟩
    · exact absurd h (by decide)
    · rw [flipNet_ch] at h; simp at h
  rw [flipNet_ch] at h21 ⊢
  fin_cases w <;> simp
  exact h21

theorem flipNet_nonneg : NonnegWeights flipNet 0 := by
  intro n _ cs w hk
  fin_cases n <;> simp [flipNet] at hk
  obtain ⟨rfl, rfl⟩ := hk
  exact ⟨by simp, [1 / 2, 1 / 2], by simp, by simp, by norm_num⟩

theorem flipNet_leaves (I : VarSet) : LeavesEval flipNet 0 I := by
  intro n l _ hk
  fin_cases n <;> simp [flipNet] at hk <;> subst hk
  all_goals
    simp only [Leaf.value]
    cases I 0 with
    | none => exact ⟨_, rfl, by simp⟩
    | some v => by_cases hv : v = 1 <;> by_cases hv' : v = 0 <;> simp [hv, hv']

theorem flip_reach (i : Fin 3) : Reach flipNet.ch 0 i := by
  by_cases h : i = 0
  · rw [h]; exact Relation.ReflTransGen.refl
  · refine Relation.ReflTransGen.single ?_
    rw [flipNet_ch]
    fin_cases i <;> simp at h ⊢

theorem flip_full {p : Fin 3 → ℝ} (hp : IsValuation flipNet 0 p) (hl : LeafProbs flipNet 0 flipInst p) : p 2 = 1 ∧ p 0 = 1 / 2 := by
  obtain ⟨x, h1, h2, h3⟩ := hl 1 _ (flip_reach 1) rfl
  obtain ⟨y, k1, k2, k3⟩ := hl 2 _ (flip_reach 2) rfl
  simp [Leaf.value, flipInst] at h1 k1
  subst h1; subst k1
  have h0 := (hp 0 (flip_reach 0)).1
  simp [flipNet, nodeValue, realOf] at h0
  simp at h3 k3
  rw [h3, k3] at h0
  exact ⟨k3, by linarith⟩

theorem flip_hidden {p : Fin 3 → ℝ} (hp : IsValuation flipNet 0 p) (hl : LeafProbs flipNet 0 (hide [0] flipInst) p) : p 2 = 1 ∧ p 0 = 1 := by
  obtain ⟨x, h1, h2, h3⟩ := hl 1 _ (flip_reach 1) rfl
  obtain ⟨y, k1, k2, k3⟩ := hl 2 _ (flip_reach 2) rfl
  simp [Leaf.value, flipInst, hide] at h1 k1
  subst h1; subst k1
  have h0 := (hp 0 (flip_reach 0)).1
  simp [flipNet, nodeValue, realOf] at h0
  simp at h3 k3
  rw [h3, k3] at h0
  exact ⟨k3, by linarith⟩

private theorem flip_kind : flipNet.kind 0 = .sum [1, 2] (([1 / 2, 1 / 2] : List ℝ).map XR.fin) := by simp [flipNet]

theorem flip_cond {x : ℝ} (h : IsCondGradient flipNet 0 [0] flipInst 0 1 (1 / 2) x) : x = 1 := by
  obtain ⟨p, q, ⟨p1, p2, _⟩, ⟨q1, q2, _⟩, ⟨v, v', hv, hv'⟩, hd⟩ := h
  have e := hd v v' hv hv'
  obtain ⟨a1, a2⟩ := flip_full p1 p2
  obtain ⟨b1, b2⟩ := flip_hidden q1 q2
  have e1 : (fun x => Real.log (v x 0) - Real.log (v' x 0)) = fun x => Real.log (1 / 2 + (x - 1 / 2) * 1) - Real.log (1 + (x - 1 / 2) * 1) := by
    funext x
    rw [rootWeight_affine flipNet_acyclic p1 flip_kind (j := 1) (c := 2) rfl rfl hv x, rootWeight_affine flipNet_acyclic q1 flip_kind (j := 1) (c := 2) rfl rfl hv' x, a1, a2, b1, b2]
  rw [e1] at e
  have h1 := (affine_deriv (1 / 2) (1 / 2) 1).log (by norm_num)
  have h2 := (affine_deriv 1 (1 / 2) 1).log (by norm_num)
  have := e.unique (h1.fun_sub h2)
  rw [this]
  norm_num

theorem flip_grad {d : ℝ} (h : IsGradient flipNet 0 flipInst 0 1 (1 / 2) d) : d = 1 := by
  obtain ⟨p, p1, p2, ⟨v, hv⟩, hd⟩ := h
  have e := hd v hv
  obtain ⟨a1, a2⟩ := flip_full p1 p2
  have e1 : (fun x => v x 0) = fun x => 1 / 2 + (x - 1 / 2) * 1 := by
    funext x
    rw [rootWeight_affine flipNet_acyclic p1 flip_kind (j := 1) (c := 2) rfl rfl hv x, a1, a2]
  rw [e1] at e
  exact e.unique (affine_deriv _ _ _)

theorem flip_grad' {d : ℝ} (h : IsGradient flipNet 0 (hide [0] flipInst) 0 1 (1 / 2) d) : d = 1 := by
  obtain ⟨p, p1, p2, ⟨v, hv⟩, hd⟩ := h
  have e := hd v hv
  obtain ⟨a1, a2⟩ := flip_hidden p1 p2
  have e1 : (fun x => v x 0) = fun x => 1 + (x - 1 / 2) * 1 := by
    funext x
    rw [rootWeight_affine flipNet_acyclic p1 flip_kind (j := 1) (c := 2) rfl rfl hv x, a1, a2]
  rw [e1] at e
  exact e.unique (affine_deriv _ _ _)

theorem flip_restore : CanRestore [0] flipInst := by
  intro u hu
  simp at hu
  subst hu
  exact ⟨0, by simp [flipInst], Or.inr rfl⟩

/-- One iteration, no regularisation. -/
noncomputable def flipParams : Params XR := { (Params.default : Params XR) with iterations := 1, lambda := .fin 0 }

/-- C101 is refuted: at a root with weights 1/2 and 1/2 over the two indicators of the query variable, on the one instance that has the second value, the conditional gradient of the second weight is 1,
and `DiscriminativeGD` with learning rate 1 leaves that weight at 1/2. -/
theorem C101_refuted : ∃ (N N' : Net (Fin 3) XR) (P : Params XR) (I : VarSet), Acyclic N.ch ∧ SiblingOrdered N.ch 0 ∧ NonnegWeights N 0 ∧ CanRestore [0] I ∧ LeavesEval N 0 I ∧ LeavesEval N 0 (hide [0] I) ∧
    P.iterations = 1 ∧ P.lambda = .fin 0 ∧ N.kind 0 = .sum [1, 2] [.fin (1 / 2), .fin (1 / 2)] ∧ (∃ x, IsCondGradient N 0 [0] I 0 1 (1 / 2) x) ∧ (∀ x, IsCondGradient N 0 [0] I 0 1 (1 / 2) x → x = 1) ∧
    N.discriminativeGD 0 P (.fin 1) [I] [0] false = some (N', [I]) ∧ (N'.weights 0)[1]? = some (.fin (1 / 2)) ∧ ¬ CondStep 0 1 0 1 false [0] [I] N N' := by
  have hP : flipParams.lambda = .fin (0 : ℝ) := rfl
  have hsums : ∀ n cs w, flipNet.kind n = .sum cs w → cs ≠ [] := by
    intro n cs w hk
    fin_cases n <;> simp [flipNet] at hk
    simp [← hk.1]
  have hval := prob_isValuation flipNet_acyclic flipNet_nonneg (flipNet_leaves flipInst)
  have hval' := prob_isValuation flipNet_acyclic flipNet_nonneg (flipNet_leaves (hide [0] flipInst))
  have hpos : 0 < flipNet.prob flipInst 0 := by rw [(flip_full hval (prob_leaf flipNet_acyclic (flipNet_leaves _))).2]; norm_num
  have hpos' : 0 < flipNet.prob (hide [0] flipInst) 0 := by rw [(flip_hidden hval' (prob_leaf flipNet_acyclic (flipNet_leaves _))).2]; norm_num
  rcases C101_gd_partial flipNet 0 flipParams 1 0 hP [flipInst] [0] false flipNet_acyclic flipNet_siblings rfl hsums
    (by simpa using ⟨flip_restore, flipNet_leaves _, flipNet_leaves _⟩) with ⟨N', h1, h2⟩ | ⟨pre, B, post, N1, h1, h2, h3⟩
  · have e : (List.replicate flipParams.iterations.toNat [flipInst]).flatten.map ([·]) = [[flipInst]] := rfl
    rw [e] at h2
    cases h2 with
    | cons hs hr =>
      cases hr
      obtain ⟨_, cs, r, r', w', k1, k2, k3, k4, k5⟩ := hs
      rw [flip_kind] at k1
      simp only [Kind.sum.injEq] at k1
      obtain ⟨rfl, k1⟩ := k1
      have hr : r = [1 / 2, 1 / 2] := by
        have := List.map_injective_iff.2 (fun a b h => by cases h; rfl : Function.Injective XR.fin) k1
        exact this.symm
      subst hr
      obtain ⟨xs, x1, x2⟩ := k5 1 (1 / 2) rfl
      rw [List.forall₂_cons_left_iff] at x1
      obtain ⟨x, xs', ⟨_, hx⟩, hnil, rfl⟩ := x1
      rw [List.forall₂_nil_left_iff] at hnil
      subst hnil
      obtain ⟨d, d', g1, g2, rfl⟩ := hx one_ne_zero
      rw [flip_grad g1, flip_grad' g2] at x2
      have x3 : r'[1]? = some (1 / 2) := by rw [x2]; norm_num
      have hw' := k4.1 rfl
      subst hw'
      refine ⟨flipNet, N', flipParams, flipInst, flipNet_acyclic, flipNet_siblings, flipNet_nonneg, flip_restore, flipNet_leaves _, flipNet_leaves _, rfl, rfl, by simpa using flip_kind,
        ⟨_, root_isCondGradient flipNet_acyclic flipNet_nonneg (flipNet_leaves _) (flipNet_leaves _) flip_kind hpos hpos' (j := 1) (c := 2) rfl rfl⟩, fun x hx => flip_cond hx, h1, ?_, ?_⟩
      · simp [Net.weights, k2, x3]
      · intro hc
        obtain ⟨s, s', u', c1, c2, c3, c4, c5⟩ := hc 0 (flip_reach 0) _ _ flip_kind
        have hs : s = [1 / 2, 1 / 2] := (List.map_injective_iff.2 (fun a b h => by cases h; rfl : Function.Injective XR.fin) c1).symm
        subst hs
        obtain ⟨ys, y1, y2⟩ := c5 1 (1 / 2) rfl
        rw [List.forall₂_cons_left_iff] at y1
        obtain ⟨y, ys', hy, hnil, rfl⟩ := y1
        rw [List.forall₂_nil_left_iff] at hnil
        subst hnil
        rw [flip_cond hy] at y2
        rw [k2] at c2
        simp only [Kind.sum.injEq, true_and] at c2
        rw [c4.1 rfl] at c2
        have := List.map_injective_iff.2 (fun a b h => by cases h; rfl : Function.Injective XR.fin) c2
        rw [this, y2] at x3
        norm_num at x3
  · exfalso
    have e : (List.replicate flipParams.iterations.toNat [flipInst]).flatten.map ([·]) = [[flipInst]] := rfl
    rw [e] at h1
    cases pre with
    | cons a pre => simp at h1
    | nil =>
      simp at h1
      obtain ⟨rfl, _⟩ := h1
      cases h2
      rcases h3 with h3 | ⟨J, hJ, ⟨p, p1, p2, p3⟩ | ⟨p, p1, p2, p3⟩⟩
      · exact h3 flipNet_nonneg
      · simp at hJ; subst hJ
        rw [(flip_full p1 p2).2] at p3
        norm_num at p3
      · simp at hJ; subst hJ
        rw [(flip_hidden p1 p2).2] at p3
        norm_num at p3

/-- The network of the refutation meets the hypotheses of `C101_gd_partial` and `C101_bgd_partial`. -/
example : Acyclic flipNet.ch ∧ SiblingOrdered flipNet.ch 0 ∧ flipNet.type 0 = .sum ∧ CanRestore [0] flipInst ∧ LeavesEval flipNet 0 flipInst ∧ LeavesEval flipNet 0 (hide [0] flipInst) :=
  ⟨flipNet_acyclic, flipNet_siblings, rfl, flip_restore, flipNet_leaves _, flipNet_leaves _⟩

end Gospn
