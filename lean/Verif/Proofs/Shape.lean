import Verif.Spec.Shape
import Verif.Proofs.Topo
import Mathlib.Data.Fintype.EquivFin
import Mathlib.Data.Finset.Dedup
/-
Alternating networks have no edge bridged by a longer path; finite copies of networks.
-/
set_option linter.unusedSectionVars false
set_option linter.unusedSimpArgs false
namespace Gospn
open Spec
variable {ι κ F : Type}

theorem scope_up {N : Net ι F} {a b : ι} {v : Int} (h : Reach N.ch b a) (hv : InScope N a v) : InScope N b v := by
  obtain ⟨m, l, h1, h2, h3⟩ := hv
  exact ⟨m, l, h.trans h1, h2, h3⟩

/-- Every node has a variable. -/
theorem scope_inhabited {N : Net ι F} {S : ι} (hac : Acyclic N.ch) (hl : LeavesAreLeaves N S) : ∀ n, Reach N.ch S n → ∃ v, InScope N n v := by
  obtain ⟨rank, hr⟩ := hac
  have key : ∀ k n, rank n < k → Reach N.ch S n → ∃ v, InScope N n v := by
    intro k
    induction k with
    | zero => intro n h; omega
    | succ k ih =>
      intro n hk hn
      by_cases ht : N.type n = .leaf
      · unfold Net.type at ht
        cases hk' : N.kind n with
        | leaf l => exact ⟨leafVar l, n, l, Relation.ReflTransGen.refl, hk', rfl⟩
        | sum cs w => rw [hk'] at ht; cases ht
        | product cs => rw [hk'] at ht; cases ht
      · obtain ⟨c, hc⟩ := List.exists_mem_of_ne_nil _ (hl n hn ht)
        obtain ⟨v, hv⟩ := ih c (by have := hr n c hc; omega) (hn.tail hc)
        exact ⟨v, scope_up (Relation.ReflTransGen.single hc) hv⟩
  exact fun n hn => key (rank n + 1) n (Nat.lt_succ_self _) hn

/-- Two different children of a product share no variable. -/
theorem product_disjoint {N : Net ι F} {S n : ι} {cs : List ι} (hd : IsDecomposable N S) (hn : Reach N.ch S n) (hk : N.kind n = .product cs) {a b : ι} (ha : a ∈ cs) (hb : b ∈ cs)
    (hab : a ≠ b) (v : Int) (h1 : InScope N a v) (h2 : InScope N b v) : False := by
  have hp := hd n hn cs hk
  obtain ⟨i, hi, rfl⟩ := List.mem_iff_getElem.1 ha
  obtain ⟨j, hj, rfl⟩ := List.mem_iff_getElem.1 hb
  rw [List.pairwise_iff_getElem] at hp
  rcases Nat.lt_trichotomy i j with h | rfl | h
  · exact hp i j hi hj h v ⟨h1, h2⟩
  · exact hab rfl
  · exact hp j i hj hi h v ⟨h2, h1⟩

/-- A product with at least two children has a variable that a given child lacks. -/
theorem product_strict {N : Net ι F} {S n : ι} {cs : List ι} (hac : Acyclic N.ch) (hl : LeavesAreLeaves N S) (hd : IsDecomposable N S) (hn : Reach N.ch S n) (hk : N.kind n = .product cs)
    (h2 : 2 ≤ cs.length) {c : ι} (hc : c ∈ cs) : ∃ v, InScope N n v ∧ ¬ InScope N c v := by
  have hcs : N.ch n = cs := by unfold Net.ch; rw [hk]
  have hp := hd n hn cs hk
  rw [List.pairwise_iff_getElem] at hp
  obtain ⟨i, hi, rfl⟩ := List.mem_iff_getElem.1 hc
  obtain ⟨j, hj, hij⟩ : ∃ j, j < cs.length ∧ j ≠ i := by
    by_cases h : i = 0
    · exact ⟨1, by omega, by omega⟩
    · exact ⟨0, by omega, by omega⟩
  have hmem : cs[j] ∈ N.ch n := by rw [hcs]; exact List.getElem_mem hj
  obtain ⟨v, hv⟩ := scope_inhabited hac hl cs[j] (hn.tail hmem)
  refine ⟨v, scope_up (Relation.ReflTransGen.single hmem) hv, fun hv' => ?_⟩
  rcases Nat.lt_trichotomy i j with h | rfl | h
  · exact hp i j hi hj h v ⟨hv', hv⟩
  · exact hij rfl
  · exact hp j i hj hi h v ⟨hv, hv'⟩

theorem Spec.Layered.reduced {N : Net ι F} {S : ι} (h : Layered N S) : TransitivelyReduced N.ch S := by
  intro w hw a ha b hb hr
  by_contra hne
  have hac := h.acyclic
  have hb' : Reach N.ch S b := hw.tail hb
  have ha' : Reach N.ch S a := hw.tail ha
  cases hk : N.kind w with
  | leaf l => unfold Net.ch at ha; rw [hk] at ha; cases ha
  | product cs =>
    have hcs : N.ch w = cs := by unfold Net.ch; rw [hk]
    rw [hcs] at ha hb
    obtain ⟨v, hv⟩ := scope_inhabited hac h.leaves a ha'
    exact product_disjoint h.decomposable hw hk ha hb (Ne.symm hne) v hv (scope_up hr hv)
  | sum cs ws =>
    have hcs : N.ch w = cs := by unfold Net.ch; rw [hk]
    rw [hcs] at ha hb
    rcases Relation.ReflTransGen.cases_head hr with e | ⟨c, hbc, hca⟩
    · exact hne e
    · have hnb := (h.alternating w hw).1 cs ws hk b hb
      cases hkb : N.kind b with
      | leaf l => unfold Net.ch at hbc; rw [hkb] at hbc; cases hbc
      | sum ds vs => exact hnb (by unfold Net.type; rw [hkb])
      | product ds =>
        have hds : N.ch b = ds := by unfold Net.ch; rw [hkb]
        rw [hds] at hbc
        obtain ⟨v, hv, hnv⟩ := product_strict hac h.leaves h.decomposable hb' hkb ((h.alternating b hb').2 ds hkb) hbc
        exact hnv (scope_up hca (h.complete w hw cs ws hk b hb a ha v hv))

/-- Trees without cycles have no edge bridged by a longer path. -/
theorem Spec.TreeBelow.reduced {ch : ι → List ι} {S : ι} (h : TreeBelow ch S) (hac : Acyclic ch) : TransitivelyReduced ch S := by
  intro w hw a ha b hb hr
  by_contra hne
  rcases Relation.ReflTransGen.cases_tail hr with e | ⟨x, hbx, hxa⟩
  · exact hne e.symm
  · have : x = w := h x w a ((hw.tail hb).trans hbx) hw hxa ha
    subst this
    exact hac.not_reach_parent hb hbx

theorem tree_of_parent {ch : ι → List ι} (S : ι) (par : ι → ι) (h : ∀ u, ∀ c ∈ ch u, par c = u) : TreeBelow ch S :=
  fun u v c _ _ hu hv => (h u c hu).symm.trans (h v c hv)

/-! ### Copies -/

theorem copy_ch {N : Net ι F} {N' : Net κ F} {f : κ → ι} (hk : ∀ i, relabel f (N'.kind i) = N.kind (f i)) (i : κ) : N.ch (f i) = (N'.ch i).map f := by
  unfold Net.ch
  rw [← hk i]
  cases N'.kind i <;> rfl

theorem copy_type {N : Net ι F} {N' : Net κ F} {f : κ → ι} (hk : ∀ i, relabel f (N'.kind i) = N.kind (f i)) (i : κ) : N.type (f i) = N'.type i := by
  unfold Net.type
  rw [← hk i]
  cases N'.kind i <;> rfl

theorem copy_reach {N : Net ι F} {N' : Net κ F} {f : κ → ι} (hk : ∀ i, relabel f (N'.kind i) = N.kind (f i)) {i : κ} {x : ι} (h : Reach N.ch (f i) x) :
    ∃ j, f j = x ∧ Reach N'.ch i j := by
  induction h with
  | refl => exact ⟨i, rfl, Relation.ReflTransGen.refl⟩
  | tail _ hc ih =>
    obtain ⟨j, rfl, hj⟩ := ih
    rw [copy_ch hk] at hc
    obtain ⟨c, hc', rfl⟩ := List.mem_map.1 hc
    exact ⟨c, rfl, hj.tail hc'⟩

theorem copy_reach_up {N : Net ι F} {N' : Net κ F} {f : κ → ι} (hk : ∀ i, relabel f (N'.kind i) = N.kind (f i)) {i j : κ} (h : Reach N'.ch i j) : Reach N.ch (f i) (f j) := by
  induction h with
  | refl => exact Relation.ReflTransGen.refl
  | tail _ hc ih =>
    refine ih.tail ?_
    show _ ∈ N.ch _
    rw [copy_ch hk]
    exact List.mem_map_of_mem hc

theorem copy_scope {N : Net ι F} {N' : Net κ F} {f : κ → ι} (hf : Function.Injective f) (hk : ∀ i, relabel f (N'.kind i) = N.kind (f i)) (i : κ) (v : Int) :
    InScope N' i v ↔ InScope N (f i) v := by
  constructor
  · rintro ⟨m, l, h1, h2, h3⟩
    refine ⟨f m, l, copy_reach_up hk h1, ?_, h3⟩
    rw [← hk m, h2]
    rfl
  · rintro ⟨m, l, h1, h2, h3⟩
    obtain ⟨j, rfl, hj⟩ := copy_reach hk h1
    refine ⟨j, l, hj, ?_, h3⟩
    rw [← hk j] at h2
    revert h2
    cases N'.kind j <;> simp [relabel]

theorem Spec.IsCopy.all_reachable {N : Net ι F} {S : ι} {N' : Net κ F} {S' : κ} (h : IsCopy N S N' S') (i : κ) : Reach N'.ch S' i := by
  obtain ⟨f, hf, rfl, hr, hk⟩ := h
  obtain ⟨j, hj, hj'⟩ := copy_reach hk ((hr (f i)).2 ⟨i, rfl⟩)
  rw [hf hj] at hj'
  exact hj'

theorem Spec.IsCopy.acyclic {N : Net ι F} {S : ι} {N' : Net κ F} {S' : κ} (h : IsCopy N S N' S') (hac : Acyclic N.ch) : Acyclic N'.ch := by
  obtain ⟨f, _, _, _, hk⟩ := h
  obtain ⟨rank, hr⟩ := hac
  refine ⟨fun i => rank (f i), fun u c hc => hr _ _ ?_⟩
  rw [copy_ch hk]
  exact List.mem_map_of_mem hc

theorem Spec.IsCopy.reduced {N : Net ι F} {S : ι} {N' : Net κ F} {S' : κ} (h : IsCopy N S N' S') (ht : TransitivelyReduced N.ch S) : TransitivelyReduced N'.ch S' := by
  obtain ⟨f, hf, rfl, hr, hk⟩ := h
  intro w hw a ha b hb hab
  apply hf
  refine ht (f w) (copy_reach_up hk hw) _ ?_ _ ?_ (copy_reach_up hk hab)
  · rw [copy_ch hk]; exact List.mem_map_of_mem ha
  · rw [copy_ch hk]; exact List.mem_map_of_mem hb

theorem Spec.IsCopy.leaves {N : Net ι F} {S : ι} {N' : Net κ F} {S' : κ} (h : IsCopy N S N' S') (hl : LeavesAreLeaves N S) : LeavesAreLeaves N' S' := by
  obtain ⟨f, hf, rfl, hr, hk⟩ := h
  intro n hn ht he
  refine hl (f n) (copy_reach_up hk hn) (by rw [copy_type hk]; exact ht) ?_
  rw [copy_ch hk, he]
  rfl

theorem Spec.IsCopy.complete {N : Net ι F} {S : ι} {N' : Net κ F} {S' : κ} (h : IsCopy N S N' S') (hc : IsComplete N S) : IsComplete N' S' := by
  obtain ⟨f, hf, rfl, hr, hk⟩ := h
  intro n hn cs w hkn c hc' d hd v hv
  have e := hk n
  rw [hkn] at e
  rw [copy_scope hf hk] at hv ⊢
  exact hc (f n) (copy_reach_up hk hn) _ _ e.symm _ (List.mem_map_of_mem hc') _ (List.mem_map_of_mem hd) v hv

theorem Spec.IsCopy.decomposable {N : Net ι F} {S : ι} {N' : Net κ F} {S' : κ} (h : IsCopy N S N' S') (hd : IsDecomposable N S) : IsDecomposable N' S' := by
  obtain ⟨f, hf, rfl, hr, hk⟩ := h
  intro n hn cs hkn
  have e := hk n
  rw [hkn] at e
  have := hd (f n) (copy_reach_up hk hn) _ e.symm
  rw [List.pairwise_map] at this
  refine this.imp ?_
  intro a b hab v
  rw [copy_scope hf hk, copy_scope hf hk]
  exact hab v

theorem Spec.IsCopy.alternating {N : Net ι F} {S : ι} {N' : Net κ F} {S' : κ} (h : IsCopy N S N' S') (ha : Alternating N S) : Alternating N' S' := by
  obtain ⟨f, hf, rfl, hr, hk⟩ := h
  intro n hn
  have e := hk n
  have := ha (f n) (copy_reach_up hk hn)
  refine ⟨?_, ?_⟩
  · intro cs w hkn c hc
    rw [hkn] at e
    have := this.1 _ _ e.symm (f c) (List.mem_map_of_mem hc)
    rwa [copy_type hk] at this
  · intro cs hkn
    rw [hkn] at e
    simpa using this.2 _ e.symm

theorem Spec.IsCopy.layered {N : Net ι F} {S : ι} {N' : Net κ F} {S' : κ} (h : IsCopy N S N' S') (hl : Layered N S) : Layered N' S' :=
  ⟨h.acyclic hl.acyclic, h.leaves hl.leaves, h.complete hl.complete, h.decomposable hl.decomposable, h.alternating hl.alternating⟩

theorem Spec.IsCopy.scope {N : Net ι F} {S : ι} {N' : Net κ F} {S' : κ} (h : IsCopy N S N' S') (v : Int) : InScope N' S' v ↔ InScope N S v := by
  obtain ⟨f, hf, rfl, hr, hk⟩ := h
  exact copy_scope hf hk S' v

theorem Spec.IsCopy.root_type {N : Net ι F} {S : ι} {N' : Net κ F} {S' : κ} (h : IsCopy N S N' S') : N'.type S' = N.type S := by
  obtain ⟨f, hf, rfl, hr, hk⟩ := h
  exact (copy_type hk S').symm

/-- Below a node of a graph without cycles there are finitely many nodes. -/
theorem reach_finite {ch : ι → List ι} (hac : Acyclic ch) (S : ι) : ∃ l : List ι, ∀ x, Reach ch S x ↔ x ∈ l := by
  obtain ⟨rank, hr⟩ := hac
  have key : ∀ k S, rank S < k → ∃ l : List ι, ∀ x, Reach ch S x ↔ x ∈ l := by
    intro k
    induction k with
    | zero => intro n h; omega
    | succ k ih =>
      intro S hS
      have : ∀ c, ∃ l : List ι, c ∈ ch S → ∀ x, Reach ch c x ↔ x ∈ l := by
        intro c
        by_cases hc : c ∈ ch S
        · obtain ⟨l, hl⟩ := ih c (by have := hr S c hc; omega)
          exact ⟨l, fun _ => hl⟩
        · exact ⟨[], fun h => absurd h hc⟩
      choose g hg using this
      refine ⟨S :: (ch S).flatMap g, fun x => ?_⟩
      rw [List.mem_cons, List.mem_flatMap]
      constructor
      · intro h
        rcases Relation.ReflTransGen.cases_head h with e | ⟨c, hc, hcx⟩
        · exact Or.inl e.symm
        · exact Or.inr ⟨c, hc, (hg c hc x).1 hcx⟩
      · rintro (rfl | ⟨c, hc, hx⟩)
        · exact Relation.ReflTransGen.refl
        · exact Relation.ReflTransGen.head hc ((hg c hc x).2 hx)
  exact key (rank S + 1) S (Nat.lt_succ_self _)

/-- Every network without cycles has a finite copy. -/
theorem exists_copy (N : Net ι F) (S : ι) (hac : Acyclic N.ch) : ∃ (n : Nat) (N' : Net (Fin n) F) (S' : Fin n), IsCopy N S N' S' := by
  classical
  obtain ⟨l, hl⟩ := reach_finite hac S
  have hmem : ∀ x, x ∈ l.dedup ↔ Reach N.ch S x := fun x => by rw [List.mem_dedup, hl]
  have hS := (hmem S).2 Relation.ReflTransGen.refl
  let f : Fin l.dedup.length → ι := fun i => l.dedup[i]
  have hf : Function.Injective f := by
    intro i j hij
    exact Fin.ext ((List.nodup_dedup l).getElem_inj_iff.1 hij)
  have hsurj : ∀ x, Reach N.ch S x ↔ ∃ i, f i = x := by
    intro x
    rw [← hmem, List.mem_iff_getElem]
    constructor
    · rintro ⟨i, hi, h⟩; exact ⟨⟨i, hi⟩, h⟩
    · rintro ⟨i, h⟩; exact ⟨i, i.2, h⟩
  obtain ⟨S', hS'⟩ := (hsurj S).1 Relation.ReflTransGen.refl
  have : Nonempty (Fin l.dedup.length) := ⟨S'⟩
  let g : ι → Fin l.dedup.length := Function.invFun f
  have hg : ∀ x, Reach N.ch S x → f (g x) = x := fun x hx => Function.invFun_eq ((hsurj x).1 hx)
  refine ⟨l.dedup.length, ⟨fun i => relabel g (N.kind (f i))⟩, S', f, hf, hS', hsurj, fun i => ?_⟩
  have hi := (hsurj (f i)).2 ⟨i, rfl⟩
  have hmap : ∀ cs : List ι, (∀ c ∈ cs, c ∈ N.ch (f i)) → (cs.map g).map f = cs := by
    intro cs h
    rw [List.map_map]
    conv_rhs => rw [← List.map_id cs]
    exact List.map_congr_left fun c hc => hg c (hi.tail (h c hc))
  show relabel f (relabel g (N.kind (f i))) = N.kind (f i)
  cases hk : N.kind (f i) with
  | leaf l => rfl
  | sum cs w =>
    show Kind.sum _ _ = _
    rw [hmap cs (fun c hc => by unfold Net.ch; rw [hk]; exact hc)]
  | product cs =>
    show Kind.product _ = _
    rw [hmap cs (fun c hc => by unfold Net.ch; rw [hk]; exact hc)]

end Gospn
