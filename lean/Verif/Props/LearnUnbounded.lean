/-
C136: without the condition on the weights there is no bound on the size of a learned network.
-/
import Verif.Props.LearnSize

set_option linter.unusedSectionVars false
set_option linter.unusedSimpArgs false

namespace Gospn
open GoFloat Spec GensExample

/-- The k-means library may put both instances into the first of two clusters. -/
theorem clusters_uneven (eps : XR) (mp : Int) : Clustered 2 eps mp [d0, d1] [[d0, d1], []] := by
  obtain ⟨_, _, _, _, _, hs, hx, _⟩ := C136_attained eps mp
  obtain ⟨o, ho, h⟩ := clusters eps mp
  rw [if_pos (by omega)] at h
  obtain ⟨hne, _⟩ := h
  obtain ⟨M, Sc, C, h1, h2, h3, h4, _⟩ := C39_groups (F := XR) (k := 2) (G := [0, 0]) (by simp) ho hs hx.2 rfl (by decide)
  have hC : C = [[d0, d1], []] := by
    have a0 := h4 0 (by omega)
    have a1 := h4 1 (by omega)
    match C, h3, a0, a1 with
    | [x, y], _, a0, a1 =>
      simp at a0 a1
      rw [a0, a1]
  refine ⟨o, ho, ?_⟩
  rw [if_pos (by omega)]
  refine ⟨hne, fun _ M => if M.length = 2 then some [0, 0] else none, ?_, ?_⟩
  · intro M G h
    dsimp only at h
    split at h
    · rename_i hM; cases h; rw [hM]; rfl
    · cases h
  · unfold kMeansDataI
    rw [h1]
    simp only [Option.bind_some]
    rw [if_pos (show M.length = 2 from (dataToMatrix_length h1).1), Option.bind_some, ← hC]
    exact h2

/-- The condition of `C136_kmeans` cannot be left out: if the k-means library may leave a cluster empty, then there is, for two variables and two instances, no
bound on the number of nodes of the network that `Learn` returns. -/
theorem C136_unbounded (eps : XR) (mp : Int) (b : Nat) : ∃ (N : Net Nat XR) (u : Nat), Learned N 0 2 eps mp scope [d0, d1] u ∧ AtLeastNodes N.ch u b ∧ ¬ NoEmptyCluster N u := by
  have hrand : ∀ n, 0 < n → (fun _ => 0 : Nat → Nat) n < n := fun n hn => hn
  obtain ⟨a, _, ha, _⟩ := C51_counting (fun _ => 0) hrand 0 [1, 0] (by decide) (by simp)
  obtain ⟨b', _, hb, _⟩ := C51_counting (fun _ => 0) hrand 1 [0, 1] (by decide) (by simp)
  obtain ⟨c, _, hc, _⟩ := C51_counting (fun _ => 0) hrand 0 [0, 1] (by decide) (by simp)
  obtain ⟨d, _, hd, _⟩ := C51_counting (fun _ => 0) hrand 1 [1, 0] (by decide) (by simp)
  obtain ⟨e, _, he, _⟩ := C51_counting (fun _ => 0) hrand 0 [0, 0] (by decide) (by simp)
  obtain ⟨f, _, hf, _⟩ := C51_counting (fun _ => 0) hrand 1 [0, 0] (by decide) (by simp)
  let w : XR := div (ofInt 1) (ofInt 2)
  let w2 : XR := div (ofInt 2) (ofInt 2)
  let w0 : XR := div (ofInt 0) (ofInt 2)
  let N : Net Nat XR := ⟨fun
    | 0 => .product [1, 2] | 1 => .leaf a | 2 => .leaf b' | 3 => .product [4, 5] | 4 => .leaf c | 5 => .leaf d
    | 6 => .product [7, 8] | 7 => .leaf e | 8 => .leaf f | 9 => .sum [0, 3] [w, w]
    | n + 10 => .sum [n + 9, 6] [w2, w0]⟩
  have leafOf : ∀ (v : Variable) (D : List VarSet) (counts : List Int) (l : Leaf XR) (u : Nat), countValues v D = some counts →
      newCountingMultinomial (fun _ => 0) v.varid counts = some l → N.kind u = .leaf l → IsUnivariate N 0 v D u := by
    intro v D counts l u h1 h2 h3
    unfold IsUnivariate
    rw [if_pos le_rfl]
    exact ⟨fun _ => 0, counts, l, hrand, h1, h2, h3⟩
  have factor : ∀ (D : List VarSet) (u x y : Nat), D.length < 2 → N.kind u = .product [x, y] → IsUnivariate N 0 ⟨0, 2⟩ D x → IsUnivariate N 0 ⟨1, 2⟩ D y →
      Learned N 0 2 eps mp scope D u := by
    intro D u x y hD hu h0 h1
    refine .factorized [0, 1] [[1, 0]] scope_order (by simp) (sets D) (by simp) (Or.inl ⟨by omega, by omega⟩) ⟨[0, 1], [x, y], scope_order, rfl, hu, ?_⟩
    intro i k c hk hc
    match i, hk, hc with
    | 0, hk, hc =>
      simp at hk hc; subst hk; subst hc
      exact ⟨⟨0, 2⟩, rfl, h0⟩
    | 1, hk, hc =>
      simp at hk hc; subst hk; subst hc
      exact ⟨⟨1, 2⟩, rfl, h1⟩
    | i + 2, hk, hc => simp at hk
  have l0 : Learned N 0 2 eps mp scope [d0] 0 := factor [d0] 0 1 2 (by simp) rfl (leafOf _ _ [1, 0] a 1 (by decide) ha rfl) (leafOf _ _ [0, 1] b' 2 (by decide) hb rfl)
  have l3 : Learned N 0 2 eps mp scope [d1] 3 := factor [d1] 3 4 5 (by simp) rfl (leafOf _ _ [0, 1] c 4 (by decide) hc rfl) (leafOf _ _ [1, 0] d 5 (by decide) hd rfl)
  have l6 : Learned N 0 2 eps mp scope [] 6 := factor [] 6 7 8 (by simp) rfl (leafOf _ _ [0, 0] e 7 (by decide) he rfl) (leafOf _ _ [0, 0] f 8 (by decide) hf rfl)
  have level : ∀ n, Learned N 0 2 eps mp scope [d0, d1] (n + 9) := by
    intro n
    induction n with
    | zero =>
      refine .sum [0, 1] [[1, 0]] [[d0], [d1]] (fun _ => [0, 1]) [0, 3] [(0, w), (3, w)] scope_order (by simp) (sets _) (by simp) (clusters eps mp) (by simp) rfl
        (fun _ => scope_order) ?_ (List.Perm.refl _) rfl
      intro i d c hd hc
      rw [reflectScope_eq scope_order]
      match i, hd, hc with
      | 0, hd, hc =>
        simp at hd hc; subst hd; subst hc
        exact l0
      | 1, hd, hc =>
        simp at hd hc; subst hd; subst hc
        exact l3
      | i + 2, hd, hc => simp at hd
    | succ n ih =>
      refine .sum [0, 1] [[1, 0]] [[d0, d1], []] (fun _ => [0, 1]) [n + 9, 6] [(n + 9, w2), (6, w0)] scope_order (by simp) (sets _) (by simp) (clusters_uneven eps mp) (by simp) rfl
        (fun _ => scope_order) ?_ (List.Perm.refl _) rfl
      intro i d c hd hc
      rw [reflectScope_eq scope_order]
      match i, hd, hc with
      | 0, hd, hc =>
        simp at hd hc; subst hd; subst hc
        exact ih
      | 1, hd, hc =>
        simp at hd hc; subst hd; subst hc
        exact l6
      | i + 2, hd, hc => simp at hd
  have down : ∀ n i, i ≤ n → Reach N.ch (n + 9) (i + 9) := by
    intro n
    induction n with
    | zero => intro i hi; obtain rfl : i = 0 := by omega
              exact Relation.ReflTransGen.refl
    | succ n ih =>
      intro i hi
      rcases Nat.lt_or_ge n i with h | h
      · obtain rfl : i = n + 1 := by omega
        exact Relation.ReflTransGen.refl
      · exact Relation.ReflTransGen.head (by show n + 9 ∈ [n + 9, 6]; simp) (ih i h)
  refine ⟨N, b + 1 + 9, level (b + 1), ⟨(List.range b).map (· + 9), ?_, by simp, ?_⟩, ?_⟩
  · exact (List.nodup_range).map (fun x y h => by simpa using h)
  · intro v hv
    obtain ⟨i, hi, rfl⟩ := List.mem_map.1 hv
    rw [List.mem_range] at hi
    exact down (b + 1) i (by omega)
  · intro h
    exact h (b + 1 + 9) [b + 9, 6] [w2, w0] Relation.ReflTransGen.refl rfl 2 (by omega) (by simp [w0])

end Gospn
