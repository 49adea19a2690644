import Verif.Model.Spn
import Verif.Proofs.TopoVariants
import Verif.Proofs.Search
import Verif.Proofs.Storer
set_option linter.unusedSectionVars false
namespace Gospn
open Spec GoFloat

section Rec
variable {ι : Type} [Fintype ι] {α : Type}

/-- On a finite graph a rank below the number of nodes can be chosen. -/
theorem Spec.Acyclic.bounded {ch : ι → List ι} (h : Acyclic ch) :
    ∃ rank : ι → Nat, (∀ u, ∀ c ∈ ch u, rank c < rank u) ∧ ∀ u, rank u < Fintype.card ι := by
  classical
  obtain ⟨r, hr⟩ := h
  refine ⟨fun u => (Finset.univ.filter (fun m => r m < r u)).card, ?_, ?_⟩
  · intro u c hc
    apply Finset.card_lt_card
    rw [Finset.ssubset_iff_of_subset]
    · exact ⟨c, by simp [hr u c hc], by simp⟩
    · intro m hm
      simp only [Finset.mem_filter, Finset.mem_univ, true_and] at hm ⊢
      have := hr u c hc; omega
  · intro u
    apply Finset.card_lt_card
    rw [Finset.ssubset_iff_of_subset (Finset.subset_univ _)]
    exact ⟨u, by simp, by simp⟩

/-- `step` looks at the results for the children only. -/
def LocalStep (ch : ι → List ι) (step : (ι → α) → ι → α) : Prop :=
  ∀ f g n, (∀ c ∈ ch n, f c = g c) → step f n = step g n

theorem fuelRec_stable {ch : ι → List ι} {step : (ι → α) → ι → α} (hl : LocalStep ch step) {bot : α} {rank : ι → Nat}
    (hr : ∀ u, ∀ c ∈ ch u, rank c < rank u) : ∀ k n, rank n < k → ∀ k', rank n < k' → fuelRec step bot k n = fuelRec step bot k' n := by
  intro k
  induction k with
  | zero => intro n h; omega
  | succ k ih =>
    intro n h k' h'
    obtain ⟨k', rfl⟩ : ∃ j, k' = j + 1 := ⟨k' - 1, by omega⟩
    apply hl
    intro c hc
    have := hr n c hc
    exact ih c (by omega) k' (by omega)

/-- The recursive method satisfies its defining equation on a graph without cycles. -/
theorem dagRec_unfold {ch : ι → List ι} {step : (ι → α) → ι → α} (hac : Acyclic ch) (hl : LocalStep ch step) (bot : α) (n : ι) :
    dagRec step bot n = step (dagRec step bot) n := by
  obtain ⟨rank, hr, hb⟩ := hac.bounded
  unfold dagRec
  have h1 : fuelRec step bot (Fintype.card ι) n = fuelRec step bot (Fintype.card ι + 1) n :=
    fuelRec_stable hl hr _ n (hb n) _ (by have := hb n; omega)
  rw [h1]; rfl

/-- It is the only solution. -/
theorem dagRec_unique {ch : ι → List ι} {step : (ι → α) → ι → α} (hac : Acyclic ch) (hl : LocalStep ch step) (bot : α)
    {V : ι → α} {S : ι} (hV : ∀ n, Reach ch S n → V n = step V n) : ∀ n, Reach ch S n → V n = dagRec step bot n := by
  obtain ⟨rank, hr⟩ := id hac
  intro n
  induction hn : rank n using Nat.strong_induction_on generalizing n with
  | _ k ih =>
    intro hreach
    rw [hV n hreach, dagRec_unfold hac hl]
    apply hl
    intro c hc
    exact ih (rank c) (by rw [← hn]; exact hr n c hc) c rfl (Relation.ReflTransGen.tail hreach hc)

end Rec

section DP
variable {ι : Type} [DecidableEq ι] {F : Type}

/-- A loop that fills a table in an order with children first computes a recursively defined function: `R` is the function, `f x s` the
loop body in state `x`, `rd` the table in it. -/
theorem dp_fold {σ : Type} {ch : ι → List ι} {R : ι → Option F} (rd : σ → ι → Option F) (f : σ → ι → Option σ)
    (hf : ∀ x s, (∀ c ∈ ch s, R c = rd x c ∧ (R c).isSome) →
      (R s = none ∧ f x s = none) ∨ ∃ v x', R s = some v ∧ f x s = some x' ∧ rd x' = Function.update (rd x) s (some v)) :
    ∀ (done l : List ι) (x : σ), ChildrenFirst ch (done ++ l) → (∀ n ∈ done, R n = rd x n ∧ (R n).isSome) →
      (∃ x', l.foldlM f x = some x' ∧ (∀ n ∈ done ++ l, rd x' n = R n ∧ (R n).isSome) ∧ ∀ n, n ∉ l → rd x' n = rd x n) ∨
      (l.foldlM f x = none ∧ ∃ n ∈ l, R n = none) := by
  intro done l
  induction l generalizing done with
  | nil =>
    intro x _ hd
    left; refine ⟨x, rfl, ?_, fun _ _ => rfl⟩
    intro n hn; simp at hn; exact ⟨(hd n hn).1.symm, (hd n hn).2⟩
  | cons s l ih =>
    intro x hcf hd
    have hch : ∀ c ∈ ch s, c ∈ done := hcf done s l rfl
    rcases hf x s (fun c hc => hd c (hch c hc)) with ⟨h1, h2⟩ | ⟨v, x', h1, h2, h3⟩
    · right; simp [h2, h1]
    · have := ih (done ++ [s]) x' (by simpa using hcf) (by
        intro n hn
        by_cases hns : n = s
        · subst hns; simp [h3, h1]
        · have hn' : n ∈ done := by simpa [hns] using hn
          rw [h3, Function.update_of_ne hns]; exact hd n hn')
      rcases this with ⟨y, h4, h5, h6⟩ | ⟨h4, n, hn, h5⟩
      · left; refine ⟨y, by simp [h2, h4], by simpa using h5, ?_⟩
        intro n hn
        simp only [List.mem_cons, not_or] at hn
        rw [h6 n hn.2, h3]; simp [hn.1]
      · right; exact ⟨by simp [h2, h4], n, by simp [hn], h5⟩

end DP

section Local
variable {ι F : Type} [GoFloat F]

theorem mapM_congr {α β : Type} {f g : α → Option β} {l : List α} (h : ∀ a ∈ l, f a = g a) : l.mapM f = l.mapM g := by
  induction l with
  | nil => rfl
  | cons a l ih => simp only [List.mapM_cons]; rw [h a (by simp), ih (fun b hb => h b (by simp [hb]))]

theorem mapM_eq_some {α β : Type} {f : α → Option β} {g : α → β} {l : List α} (h : ∀ a ∈ l, f a = some (g a)) : l.mapM f = some (l.map g) := by
  induction l with
  | nil => rfl
  | cons a l ih => simp only [List.mapM_cons]; rw [h a (by simp), ih (fun b hb => h b (by simp [hb]))]; rfl

theorem mapM_eq_none {α β : Type} {f : α → Option β} {l : List α} {a : α} (ha : a ∈ l) (h : f a = none) : l.mapM f = none := by
  induction l with
  | nil => cases ha
  | cons b l ih =>
    simp only [List.mapM_cons]
    rcases List.mem_cons.1 ha with rfl | ha
    · rw [h]; rfl
    · rw [ih ha]; cases f b <;> rfl

theorem Net.value_local (N : Net ι F) (I : VarSet) : LocalStep N.ch (N.valueStep I) := by
  intro f g n h
  unfold Net.ch at h; unfold Net.valueStep
  cases hk : N.kind n <;> simp only [hk] at h ⊢
  · rw [mapM_congr h]
  · rw [mapM_congr h]

theorem Net.max_local (N : Net ι F) (I : VarSet) : LocalStep N.ch (N.maxStep I) := by
  intro f g n h
  unfold Net.ch at h; unfold Net.maxStep
  cases hk : N.kind n <;> simp only [hk] at h ⊢
  · rw [mapM_congr h]
  · rw [mapM_congr h]

theorem argMaxChild_mem (l : List (ι × F)) : ∀ acc c, (argMaxChild l acc).1 = some c → acc.1 = some c ∨ c ∈ l.map Prod.fst := by
  induction l with
  | nil => intro acc c h; exact Or.inl h
  | cons a l ih =>
    intro acc c h
    obtain ⟨mc, mx⟩ := acc
    obtain ⟨d, m⟩ := a
    simp only [argMaxChild] at h
    rcases ih _ c h with h | h
    · split at h
      · simp at h; right; simp [h]
      · exact Or.inl h
    · right; simp at h ⊢; exact Or.inr h

theorem Net.argMax_local (N : Net ι F) (I : VarSet) (mx : ι → Option F) : LocalStep N.ch (N.argMaxStep I mx) := by
  intro f g n h
  unfold Net.ch at h; unfold Net.argMaxStep
  cases hk : N.kind n with
  | leaf l => rfl
  | product cs => simp only [hk] at h ⊢; rw [mapM_congr h]
  | sum cs w =>
    simp only [hk] at h ⊢
    congr 1; funext vs; congr 1; funext us
    cases hc : argMaxChild (cs.zip us) (none, ninf) with
    | mk a m =>
      cases a with
      | none => rfl
      | some c =>
        have := argMaxChild_mem (cs.zip us) (none, ninf) c (by rw [hc])
        rcases this with h' | h'
        · simp at h'
        · simp only [List.mem_map] at h'
          obtain ⟨p, hp, rfl⟩ := h'
          simp only
          rw [h p.1 (List.of_mem_zip hp).1]

variable [Fintype ι]

theorem Net.value_unfold {N : Net ι F} (hac : Acyclic N.ch) (I : VarSet) (n : ι) : N.value I n = N.valueStep I (N.value I) n :=
  dagRec_unfold hac (N.value_local I) none n

theorem Net.max_unfold {N : Net ι F} (hac : Acyclic N.ch) (I : VarSet) (n : ι) : N.max I n = N.maxStep I (N.max I) n :=
  dagRec_unfold hac (N.max_local I) none n

theorem Net.argMax_unfold {N : Net ι F} (hac : Acyclic N.ch) (I : VarSet) (n : ι) :
    N.argMax I n = N.argMaxStep I (N.max I) (N.argMax I) n :=
  dagRec_unfold hac (N.argMax_local I (N.max I)) none n

/-- A panic anywhere below a node is a panic at the node. -/
theorem Net.value_none_up {N : Net ι F} (hac : Acyclic N.ch) {I : VarSet} {S n : ι} (hr : Reach N.ch S n) (h : N.value I n = none) :
    N.value I S = none := by
  induction hr using Relation.ReflTransGen.head_induction_on with
  | refl => exact h
  | head hc _ ih =>
    rename_i a c _
    have hc : c ∈ N.ch a := hc
    rw [value_unfold hac]
    unfold Net.ch at hc; unfold Net.valueStep
    cases hk : N.kind a <;> simp only [hk] at hc ⊢
    · rw [mapM_eq_none hc ih]; rfl
    · rw [mapM_eq_none hc ih]; rfl
    · simp at hc

theorem Net.max_none_up {N : Net ι F} (hac : Acyclic N.ch) {I : VarSet} {S n : ι} (hr : Reach N.ch S n) (h : N.max I n = none) :
    N.max I S = none := by
  induction hr using Relation.ReflTransGen.head_induction_on with
  | refl => exact h
  | head hc _ ih =>
    rename_i a c _
    have hc : c ∈ N.ch a := hc
    rw [max_unfold hac]
    unfold Net.ch at hc; unfold Net.maxStep
    cases hk : N.kind a <;> simp only [hk] at hc ⊢
    · rw [mapM_eq_none hc ih]; rfl
    · rw [mapM_eq_none hc ih]; rfl
    · simp at hc

end Local

section Infer
variable {ι F : Type} [GoFloat F] [DecidableEq ι] [Fintype ι]

theorem Net.order_eq (N : Net ι F) (S : ι) : N.order S = tarjanOrder N.ch S := by
  rw [Net.order, topSortTarjan_eq]; simp [Coll.orQueue, Coll.giveAll_queue]

theorem Net.order_lists (N : Net ι F) (S : ι) : ListsReachable N.ch S (N.order S) := by
  rw [order_eq]; exact tarjanOrder_listsReachable _ _

theorem Net.order_childrenFirst {N : Net ι F} {S : ι} (hac : Acyclic N.ch) (hso : SiblingOrdered N.ch S) : ChildrenFirst N.ch (N.order S) := by
  rw [order_eq]; exact tarjanOrder_childrenFirst hac hso

/-- One step of the inference loop computes the value of the node if those of the children are in the table. -/
theorem Net.inferStep_spec {N : Net ι F} {I : VarSet} {lv : Leaf F → Option F} {R : ι → Option F} (hlv : ∀ n l, N.kind n = .leaf l → lv l = l.value I)
    (hR : ∀ n, R n = N.valueStep I R n) (V : ι → Option F) (s : ι) (h : ∀ c ∈ N.ch s, R c = V c ∧ (R c).isSome) :
    (R s = none ∧ N.inferStep lv V s = none) ∨
      ∃ v V', R s = some v ∧ N.inferStep lv V s = some V' ∧ V' = Function.update V s (some v) := by
  have hget : ∀ c ∈ N.ch s, R c = some ((V c).getD (ofInt 0)) := by
    intro c hc
    obtain ⟨h1, h2⟩ := h c hc
    rw [h1] at h2 ⊢
    obtain ⟨v, hv⟩ := Option.isSome_iff_exists.1 h2
    simp [hv]
  rw [hR s]
  unfold Net.valueStep Net.inferStep
  unfold Net.ch at hget
  cases hk : N.kind s with
  | leaf l =>
    simp only
    rw [hlv s l hk]
    cases l.value I <;> simp
  | sum cs w =>
    simp only [hk] at hget ⊢
    rw [mapM_eq_some hget]
    simp only [Option.bind_some]
    cases (weighted (cs.map fun c => (V c).getD (ofInt 0)) w).bind logSumExp <;> simp
  | product cs =>
    simp only [hk] at hget ⊢
    rw [mapM_eq_some hget]
    simp

theorem Net.infer_fold {N : Net ι F} {I : VarSet} {lv : Leaf F → Option F} (hac : Acyclic N.ch) {S : ι} (hcf : ChildrenFirst N.ch (N.order S))
    (hlv : ∀ n l, N.kind n = .leaf l → lv l = l.value I) :
    (((N.order S).foldlM (N.inferStep lv) (fun _ => none)).map (fun V => (V S).getD (ofInt 0))) = N.value I S := by
  have hol := N.order_lists S
  rcases dp_fold (ch := N.ch) (R := N.value I) id (N.inferStep lv)
      (fun x s h => Net.inferStep_spec hlv (fun n => Net.value_unfold hac I n) x s h) [] (N.order S) (fun _ => none)
      (by simpa using hcf) (by simp) with ⟨V, h1, h2, _⟩ | ⟨h1, n, hn, h2⟩
  · rw [h1]
    have := h2 S (by simpa using (hol.2 S).2 Relation.ReflTransGen.refl)
    simp only [id] at this
    obtain ⟨v, hv⟩ := Option.isSome_iff_exists.1 this.2
    simp [this.1, hv]
  · rw [h1, Net.value_none_up hac ((hol.2 n).1 hn) h2]; rfl

end Infer
end Gospn
