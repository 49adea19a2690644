import Verif.Proofs.Structure
import Verif.Props.Infer
/-!
Properties C25 to C29: normalisation of weights, scopes, validity tests, heights.
-/
set_option linter.unusedSectionVars false
namespace Gospn
open Spec GoFloat

variable {ι F : Type} [GoFloat F] [DecidableEq ι] [Fintype ι]

/-! ### C25 -/

/-- C25 for `learn.Normalize`: a vector of reals whose shifted version has a positive sum is shifted so that no entry is negative and divided by its sum; the
result is a probability vector. -/
theorem C25_normalize (v : List ℝ) (h : 0 < (shiftNonneg v).sum) :
    learnNormalize (v.map XR.fin) = ((shiftNonneg v).map (fun x => x / (shiftNonneg v).sum)).map XR.fin ∧
    IsDist ((shiftNonneg v).map (fun x => x / (shiftNonneg v).sum)) :=
  ⟨by rw [learnNormalize_fin, divSum_fin _ h.ne'], isDist_div (shiftNonneg_nonneg v) h⟩

example : 0 < (shiftNonneg [-1, 3]).sum := by norm_num [shiftNonneg, minOrZero]

theorem shiftNonneg_of_nonneg {v : List ℝ} (h : ∀ x ∈ v, 0 ≤ x) : shiftNonneg v = v := by
  unfold shiftNonneg
  rw [minOrZero_eq_zero h]; simp

/-- C25, the second half for both normalisations: a probability vector is not changed. -/
theorem C25_fixed (v : List ℝ) (h : IsDist v) : learnNormalize (v.map XR.fin) = v.map XR.fin ∧ spnNorm (v.map XR.fin) = v.map XR.fin := by
  have e : divSum (v.map XR.fin) = v.map XR.fin := by
    rw [divSum_fin v (by rw [h.2]; exact one_ne_zero), h.2]; simp
  exact ⟨by rw [learnNormalize_fin, shiftNonneg_of_nonneg h.1, e], by rw [spnNorm_fin h.1, e]⟩

example : IsDist [1 / 4, 3 / 4] := by constructor <;> norm_num

/-- C25 for the normalisation of `NormalizeSPN`, part: for vectors without negative entries it yields a probability vector. Missing: vectors with negative
entries (`C25_spn_refuted`). -/
theorem C25_spn_partial (v : List ℝ) (h : ∀ x ∈ v, 0 ≤ x) (hs : 0 < v.sum) :
    spnNorm (v.map XR.fin) = (v.map (fun x => x / v.sum)).map XR.fin ∧ IsDist (v.map (fun x => x / v.sum)) :=
  ⟨by rw [spnNorm_fin h, divSum_fin v hs.ne'], isDist_div h hs⟩

example : (∀ x ∈ ([1, 0, 2] : List ℝ), 0 ≤ x) ∧ 0 < ([1, 0, 2] : List ℝ).sum := by norm_num

/-- C25 is false of `NormalizeSPN` for vectors with a negative entry: the minimum is added where it should be subtracted. The shifted vector has a positive
sum, but one of the weights produced is negative. -/
theorem C25_spn_refuted : ∃ v : List ℝ, 0 < (shiftNonneg v).sum ∧ ∃ r : List ℝ, spnNorm (v.map XR.fin) = r.map XR.fin ∧ ¬ IsDist r := by
  refine ⟨[-1, 2], by norm_num [shiftNonneg, minOrZero], [2, -1], ?_, ?_⟩
  · have hm : minZero ([-1, 2].map XR.fin) = XR.fin (-1) := by rw [minZero_fin]; norm_num [minOrZero]
    unfold spnNorm
    rw [hm]
    have : (if GoFloat.lt (XR.fin (-1)) (GoFloat.ofInt 0) then ([-1, 2].map XR.fin).map (fun x => GoFloat.add x (XR.fin (-1))) else [-1, 2].map XR.fin) =
        ([-2, 1] : List ℝ).map XR.fin := by
      norm_num [XR.lt]
    dsimp only
    rw [this, divSum_fin _ (by norm_num)]
    norm_num
  · intro h
    have := h.1 (-1) (by simp)
    norm_num at this

/-! ### C26 -/

/-- C26: `NormalizeSPN(S)` returns, normalises the weights of every sum node reachable from `S` once, and leaves every other node and all edges alone. For
arbitrary floating-point operations, where normalising twice need not be the same as normalising once. -/
theorem C26_normalize_spn (N : Net ι F) (S : ι) :
    ∃ N', N.normalizeSPN S = some N' ∧
      (∀ n cs w, Reach N.ch S n → N.kind n = .sum cs w → N'.kind n = .sum cs (spnNorm w)) ∧
      (∀ n, ¬ (Reach N.ch S n ∧ N.type n = .sum) → N'.kind n = N.kind n) ∧ N'.ch = N.ch := by
  refine ⟨_, normalizeSPN_eq N S, ?_, ?_, ?_⟩
  · intro n cs w hn hk
    have hm := ((workOrder_lists N.ch false S).2 n).2 hn
    have ht : N.type n = .sum := by simp [Net.type, hk]
    simp [Net.withWeights, hk, hm, ht, Net.weights]
  · intro n hn
    have : ¬ (n ∈ workOrder N.ch false S ∧ N.type n = .sum) := by rw [(workOrder_lists N.ch false S).2 n]; exact hn
    simp only [Net.withWeights, if_neg this, Net.weights]
    cases hk : N.kind n <;> simp
  · funext n
    simp only [Net.ch, Net.withWeights]
    cases hk : N.kind n <;> simp

/-- Nodes of all kinds: `C26_normalize_spn` speaks about the sum node of this network, and leaves its other nodes alone. -/
example (w : List F) (l : Leaf F) : Reach (diamondNet w l).ch 0 0 ∧ (diamondNet w l).kind 0 = .sum [1, 2] w ∧
    ¬ (Reach (diamondNet w l).ch 0 1 ∧ (diamondNet w l).type 1 = .sum) := by
  refine ⟨Relation.ReflTransGen.refl, rfl, ?_⟩
  rintro ⟨_, h⟩
  exact absurd h (by simp [Net.type, diamondNet])

/-! ### C28 -/

theorem scopeBelow_inScope {N : Net ι F} {S : ι} {raw : ι → List Int} (hl : LeavesAreLeaves N S) (hraw : LeafScopes N S raw) {n : ι} (hn : Reach N.ch S n) (v : Int) :
    ScopeBelow N.ch raw n v ↔ InScope N n v := by
  constructor
  · rintro ⟨m, hm, hm0, hv⟩
    have hmS := hn.trans hm
    cases hk : N.kind m with
    | leaf l =>
      rw [hraw m l hmS hk] at hv
      exact ⟨m, l, hm, hk, (List.mem_singleton.1 hv).symm⟩
    | sum cs w => exact absurd hm0 (hl m hmS (by simp [Net.type, hk]))
    | product cs => exact absurd hm0 (hl m hmS (by simp [Net.type, hk]))
  · rintro ⟨m, l, hm, hk, rfl⟩
    exact ⟨m, hm, by simp [Net.ch, hk], by rw [hraw m l (hn.trans hm) hk]; simp⟩

/-- C28, part: in a network without cycles where no child is reachable from a sibling listed after it, `ComputeScope(S)` records at every node reachable from
`S` its scope, without duplicates and whatever the order in which maps are iterated over; unreachable nodes keep theirs. Missing: networks in which `TopSortTarjan`
does not list children first (`C28_order_refuted`). -/
theorem C28_scope_partial (N : Net ι F) (S : ι) (ord : ι → List Int → List Int) (raw : ι → List Int) (hac : Acyclic N.ch) (hso : SiblingOrdered N.ch S)
    (hl : LeavesAreLeaves N S) (hraw : LeafScopes N S raw) (hord : ∀ s l, (ord s l).Perm l) :
    (∀ n, Reach N.ch S n → (computeScope N.ch ord S raw n).Nodup ∧ ∀ v, v ∈ computeScope N.ch ord S raw n ↔ InScope N n v) ∧
    ∀ n, ¬ Reach N.ch S n → computeScope N.ch ord S raw n = raw n := by
  have hol := N.order_lists S
  have hcf := Net.order_childrenFirst hac hso
  have hnd : ∀ n ∈ [] ++ N.order S, N.ch n = [] → (raw n).Nodup := by
    intro n hn hc
    have hr := (hol.2 n).1 (by simpa using hn)
    cases hk : N.kind n with
    | leaf l => rw [hraw n l hr hk]; simp
    | sum cs w => exact absurd hc (hl n hr (by simp [Net.type, hk]))
    | product cs => exact absurd hc (hl n hr (by simp [Net.type, hk]))
  obtain ⟨h1, h2⟩ := computeScope_fold hord raw [] (N.order S) raw hnd (by simpa using hcf) (fun _ _ => rfl) (by simp)
  refine ⟨?_, ?_⟩
  · intro n hn
    obtain ⟨a, b⟩ := h1 n (by simpa using (hol.2 n).2 hn)
    exact ⟨a, fun v => (b v).trans (scopeBelow_inScope hl hraw hn v)⟩
  · intro n hn
    exact h2 n (Or.inl (fun h => hn ((hol.2 n).1 h)))

/-- A sum over two products with a shared leaf; the map order of every node is reversed insertion. -/
example (w : List F) (l : Leaf F) : Acyclic (diamondNet w l).ch ∧ SiblingOrdered (diamondNet w l).ch 0 ∧ LeavesAreLeaves (diamondNet w l) 0 ∧
    LeafScopes (diamondNet w l) 0 (fun n => if n = 3 then [leafVar l] else []) ∧ ∀ (_ : Fin 4) (l : List Int), l.reverse.Perm l := by
  refine ⟨(diamondNet_ok w l).1, (diamondNet_ok w l).2, ?_, ?_, fun _ l => l.reverse_perm⟩
  · intro n _ hn
    fin_cases n <;> first | exact absurd rfl hn | (rw [diamondNet_ch]; decide)
  · intro n l' _ hk
    fin_cases n
    · exact absurd hk (by simp [diamondNet])
    · exact absurd hk (by simp [diamondNet])
    · exact absurd hk (by simp [diamondNet])
    · have : l = l' := by simpa [diamondNet] using hk
      subst this; simp

/-- A product 0 over the product 1 and the product 2, which has 1 as its only child; 3 is the only leaf. -/
def skipDeep : Net (Fin 4) F := ⟨![.product [1, 2], .product [3], .product [1], .leaf (.indicator 7 1)]⟩

theorem skipDeep_ch : (skipDeep : Net (Fin 4) F).ch = ![[1, 2], [3], [1], []] := by funext i; fin_cases i <;> rfl

theorem skipDeep_acyclic : Acyclic (skipDeep : Net (Fin 4) F).ch := by rw [skipDeep_ch]; exact ⟨![3, 1, 2, 0], by decide⟩

theorem skipDeep_leaves : LeavesAreLeaves (skipDeep : Net (Fin 4) F) 0 ∧ LeafScopes (skipDeep : Net (Fin 4) F) 0 (fun n => if n = 3 then [7] else []) := by
  refine ⟨?_, ?_⟩
  · intro n _ hn
    fin_cases n <;> first | exact absurd rfl hn | (rw [skipDeep_ch]; decide)
  · intro n l' _ hk
    fin_cases n
    · exact absurd hk (by simp [skipDeep])
    · exact absurd hk (by simp [skipDeep])
    · exact absurd hk (by simp [skipDeep])
    · have : Leaf.indicator 7 1 = l' := by simpa [skipDeep] using hk
      subst this; simp [leafVar]

/-- C28 is false for networks with an edge bridged by a longer path: node 2 has variable 7 in its scope but `ComputeScope` records an empty scope, since
node 2 is dealt with before its child 1. -/
theorem C28_order_refuted : ∃ (N : Net (Fin 4) F) (raw : Fin 4 → List Int), Acyclic N.ch ∧ LeavesAreLeaves N 0 ∧ LeafScopes N 0 raw ∧ Reach N.ch 0 2 ∧
    InScope N 2 7 ∧ computeScope N.ch (fun _ l => l) 0 raw 2 = [] := by
  refine ⟨skipDeep, _, skipDeep_acyclic, skipDeep_leaves.1, skipDeep_leaves.2, ?_, ?_, ?_⟩
  · exact Relation.ReflTransGen.single (by rw [skipDeep_ch]; decide)
  · refine ⟨3, .indicator 7 1, ?_, rfl, rfl⟩
    exact Relation.ReflTransGen.head (b := 1) (by rw [skipDeep_ch]; decide) (Relation.ReflTransGen.single (by rw [skipDeep_ch]; decide))
  · rw [skipDeep_ch]; decide

/-! ### C27 -/

/-- What `Complete(S)` decides: it looks at the root and at no other node. -/
theorem C27_complete_partial (N : Net ι F) (S : ι) (ord : ι → List Int → List Int) (raw : ι → List Int) (hac : Acyclic N.ch) (hso : SiblingOrdered N.ch S)
    (hl : LeavesAreLeaves N S) (hraw : LeafScopes N S raw) (hord : ∀ s l, (ord s l).Perm l) :
    ∃ b, N.completeTest ord S raw = some b ∧
      (b = true ↔ ∀ cs w, N.kind S = .sum cs w → ∀ c ∈ cs, ∀ d ∈ cs, ∀ v, InScope N c v → InScope N d v) ∧ (IsComplete N S → b = true) := by
  have hrun : N.completeTest ord S raw = some (if N.type S = .sum then completeAt (computeScope N.ch ord S raw) (N.ch S) S else true) :=
    validLoop_root N.ch N.type S (fun s => if N.type s = .sum then completeAt (computeScope N.ch ord S raw) (N.ch s) s else true) (Fintype.card ι)
  refine ⟨_, hrun, ?_⟩
  have key : (if N.type S = .sum then completeAt (computeScope N.ch ord S raw) (N.ch S) S else true) = true ↔
      ∀ cs w, N.kind S = .sum cs w → ∀ c ∈ cs, ∀ d ∈ cs, ∀ v, InScope N c v → InScope N d v := by
    obtain ⟨hsc, _⟩ := C28_scope_partial N S ord raw hac hso hl hraw hord
    have hrS : Reach N.ch S S := Relation.ReflTransGen.refl
    have hrc : ∀ c ∈ N.ch S, Reach N.ch S c := fun c hc => Relation.ReflTransGen.single hc
    cases hk : N.kind S with
    | leaf l => simp [Net.type, hk]
    | product cs => simp [Net.type, hk]
    | sum cs w =>
      have ht : N.type S = .sum := by simp [Net.type, hk]
      have hch : N.ch S = cs := by simp [Net.ch, hk]
      rw [if_pos ht, completeAt_iff (hsc S hrS).1 (fun c hc => (hsc c (hrc c hc)).1), hch]
      rw [hch] at hrc
      have hne : cs ≠ [] := by rw [← hch]; exact hl S hrS (by simp [ht])
      have hS : ∀ v, InScope N S v ↔ ∃ c ∈ cs, InScope N c v := by
        intro v
        have h := scopeBelow_step (ch := N.ch) (raw := raw) (n := S) (by rw [hch]; exact hne) v
        rw [scopeBelow_inScope hl hraw hrS, hch] at h
        rw [h]
        constructor
        · rintro ⟨c, hc, hv⟩; exact ⟨c, hc, (scopeBelow_inScope hl hraw (hrc c hc) v).1 hv⟩
        · rintro ⟨c, hc, hv⟩; exact ⟨c, hc, (scopeBelow_inScope hl hraw (hrc c hc) v).2 hv⟩
      constructor
      · intro h cs' w' e c hc d hd v hv
        simp only [Kind.sum.injEq] at e
        obtain ⟨rfl, rfl⟩ := e
        have := (h c hc v).1 (((hsc c (hrc c hc)).2 v).2 hv)
        exact ((hsc d (hrc d hd)).2 v).1 ((h d hd v).2 this)
      · intro h c hc v
        rw [(hsc c (hrc c hc)).2, (hsc S hrS).2, hS]
        constructor
        · intro hv; exact ⟨c, hc, hv⟩
        · rintro ⟨d, hd, hv⟩; exact h cs w rfl d hd c hc v hv
  exact ⟨key, fun h => key.2 (h S Relation.ReflTransGen.refl)⟩

/-- What `Decomposable(S)` decides: it looks at the root and at no other node. -/
theorem C27_decomposable_partial (N : Net ι F) (S : ι) (ord : ι → List Int → List Int) (raw : ι → List Int) (hac : Acyclic N.ch) (hso : SiblingOrdered N.ch S)
    (hl : LeavesAreLeaves N S) (hraw : LeafScopes N S raw) (hord : ∀ s l, (ord s l).Perm l) :
    ∃ b, N.decomposableTest ord S raw = some b ∧
      (b = true ↔ ∀ cs, N.kind S = .product cs → cs.Pairwise (fun c d => ∀ v, ¬ (InScope N c v ∧ InScope N d v))) ∧ (IsDecomposable N S → b = true) := by
  have hrun : N.decomposableTest ord S raw = some (if N.type S = .product then decomposableAt (computeScope N.ch ord S raw) (N.ch S) S else true) :=
    validLoop_root N.ch N.type S (fun s => if N.type s = .product then decomposableAt (computeScope N.ch ord S raw) (N.ch s) s else true) (Fintype.card ι)
  refine ⟨_, hrun, ?_⟩
  have key : (if N.type S = .product then decomposableAt (computeScope N.ch ord S raw) (N.ch S) S else true) = true ↔
      ∀ cs, N.kind S = .product cs → cs.Pairwise (fun c d => ∀ v, ¬ (InScope N c v ∧ InScope N d v)) := by
    obtain ⟨hsc, _⟩ := C28_scope_partial N S ord raw hac hso hl hraw hord
    have hrS : Reach N.ch S S := Relation.ReflTransGen.refl
    have hrc : ∀ c ∈ N.ch S, Reach N.ch S c := fun c hc => Relation.ReflTransGen.single hc
    cases hk : N.kind S with
    | leaf l => simp [Net.type, hk]
    | sum cs w => simp [Net.type, hk]
    | product cs =>
      have ht : N.type S = .product := by simp [Net.type, hk]
      have hch : N.ch S = cs := by simp [Net.ch, hk]
      rw [if_pos ht, hch]
      rw [hch] at hrc
      have hne : cs ≠ [] := by rw [← hch]; exact hl S hrS (by simp [ht])
      have hS : ∀ v, v ∈ computeScope N.ch ord S raw S ↔ ∃ c ∈ cs, v ∈ computeScope N.ch ord S raw c := by
        intro v
        have h := scopeBelow_step (ch := N.ch) (raw := raw) (n := S) (by rw [hch]; exact hne) v
        rw [scopeBelow_inScope hl hraw hrS, hch] at h
        rw [(hsc S hrS).2, h]
        constructor
        · rintro ⟨c, hc, hv⟩; exact ⟨c, hc, ((hsc c (hrc c hc)).2 v).2 ((scopeBelow_inScope hl hraw (hrc c hc) v).1 hv)⟩
        · rintro ⟨c, hc, hv⟩; exact ⟨c, hc, (scopeBelow_inScope hl hraw (hrc c hc) v).2 (((hsc c (hrc c hc)).2 v).1 hv)⟩
      rw [decomposableAt_iff (hsc S hrS).1 (fun c hc => (hsc c (hrc c hc)).1) hS]
      have hp : ∀ l : List ι, (∀ c ∈ l, c ∈ cs) →
          (l.Pairwise (fun c d => ∀ v, ¬ (v ∈ computeScope N.ch ord S raw c ∧ v ∈ computeScope N.ch ord S raw d)) ↔
            l.Pairwise (fun c d => ∀ v, ¬ (InScope N c v ∧ InScope N d v))) := by
        intro l hlc
        apply List.Pairwise.iff_of_mem
        intro c d hc hd
        have a := (hsc c (hrc c (hlc c hc))).2
        have b := (hsc d (hrc d (hlc d hd))).2
        simp only [a, b]
      rw [hp cs (fun _ h => h)]
      constructor
      · intro h cs' e
        simp only [Kind.product.injEq] at e
        subst e; exact h
      · intro h; exact h cs rfl
  exact ⟨key, fun h => key.2 (h S Relation.ReflTransGen.refl)⟩

/-- A product (or sum) 0 with one child, node 1, which is incomplete (or not decomposable). -/
def hiddenNet (sum : Bool) : Net (Fin 4) F :=
  if sum then ⟨![.product [1], .sum [2, 3] [], .leaf (.indicator 0 1), .leaf (.indicator 5 1)]⟩
  else ⟨![.sum [1] [], .product [2, 3], .leaf (.indicator 0 1), .leaf (.indicator 0 1)]⟩

theorem hiddenNet_ch (b : Bool) : (hiddenNet b : Net (Fin 4) F).ch = ![[1], [2, 3], [], []] := by
  cases b <;> funext i <;> fin_cases i <;> rfl

theorem hiddenNet_ok (b : Bool) : Acyclic (hiddenNet b : Net (Fin 4) F).ch ∧ SiblingOrdered (hiddenNet b : Net (Fin 4) F).ch 0 ∧
    LeavesAreLeaves (hiddenNet b : Net (Fin 4) F) 0 ∧ LeafScopes (hiddenNet b : Net (Fin 4) F) 0 ![[], [], [0], if b then [5] else [0]] := by
  refine ⟨?_, ?_, ?_, ?_⟩
  · rw [hiddenNet_ch]; exact ⟨![2, 1, 0, 0], by decide⟩
  · rw [hiddenNet_ch]
    apply TransitivelyReduced.siblingOrdered
    intro w _ a ha b hb hr
    rcases Relation.ReflTransGen.cases_head hr with h | ⟨c, hc, _⟩
    · exact h
    · fin_cases w <;> fin_cases a <;> fin_cases b <;> fin_cases c <;> simp_all
  · intro n _ hn
    rw [hiddenNet_ch]
    cases b <;> fin_cases n <;> first | exact absurd rfl hn | simp
  · intro n l _ hk
    cases b <;> fin_cases n <;> simp [hiddenNet] at hk <;> subst hk <;> simp [leafVar]

/-- C27 is false: `Complete` and `Decomposable` return true for a network with an inner node that is incomplete or not decomposable. Here every child
comes before its parents in the topological order, so the scopes are right: the defect is that children are enqueued if the root has not been visited. -/
theorem C27_refuted : (∃ (N : Net (Fin 4) F) (raw : Fin 4 → List Int), Acyclic N.ch ∧ SiblingOrdered N.ch 0 ∧ LeavesAreLeaves N 0 ∧ LeafScopes N 0 raw ∧
      ¬ IsComplete N 0 ∧ N.completeTest (fun _ l => l) 0 raw = some true) ∧
    ∃ (N : Net (Fin 4) F) (raw : Fin 4 → List Int), Acyclic N.ch ∧ SiblingOrdered N.ch 0 ∧ LeavesAreLeaves N 0 ∧ LeafScopes N 0 raw ∧
      ¬ IsDecomposable N 0 ∧ N.decomposableTest (fun _ l => l) 0 raw = some true := by
  have h01 : ∀ b, Reach (hiddenNet b : Net (Fin 4) F).ch 0 1 := fun b => Relation.ReflTransGen.single (by rw [hiddenNet_ch]; decide)
  refine ⟨?_, ?_⟩
  · obtain ⟨h1, h2, h3, h4⟩ := hiddenNet_ok (F := F) true
    refine ⟨hiddenNet true, _, h1, h2, h3, h4, ?_, ?_⟩
    · intro h
      have h2 : InScope (hiddenNet true : Net (Fin 4) F) 2 0 := ⟨2, .indicator 0 1, Relation.ReflTransGen.refl, rfl, rfl⟩
      obtain ⟨m, l, hm, hk, hv⟩ := h 1 (h01 true) [2, 3] [] rfl 2 (by simp) 3 (by simp) 0 h2
      rcases Relation.ReflTransGen.cases_head hm with rfl | ⟨c, hc, _⟩
      · have : Leaf.indicator 5 1 = l := by simpa [hiddenNet] using hk
        subst this; simp [leafVar] at hv
      · rw [hiddenNet_ch] at hc; simp at hc
    · obtain ⟨b, hb, hb', _⟩ := C27_complete_partial (hiddenNet true : Net (Fin 4) F) 0 (fun _ l => l) _ h1 h2 h3 h4 (fun _ _ => List.Perm.refl _)
      rw [hb, hb'.2]
      intro cs w hk
      simp [hiddenNet] at hk
  · obtain ⟨h1, h2, h3, h4⟩ := hiddenNet_ok (F := F) false
    refine ⟨hiddenNet false, _, h1, h2, h3, h4, ?_, ?_⟩
    · intro h
      have := h 1 (h01 false) [2, 3] rfl
      rw [List.pairwise_cons] at this
      exact this.1 3 (by simp) 0 ⟨⟨2, .indicator 0 1, Relation.ReflTransGen.refl, rfl, rfl⟩, ⟨3, .indicator 0 1, Relation.ReflTransGen.refl, rfl, rfl⟩⟩
    · obtain ⟨b, hb, hb', _⟩ := C27_decomposable_partial (hiddenNet false : Net (Fin 4) F) 0 (fun _ l => l) _ h1 h2 h3 h4 (fun _ _ => List.Perm.refl _)
      rw [hb, hb'.2]
      intro cs hk
      simp [hiddenNet] at hk

/-! ### C29 -/

/-- C29 for the method `Height`: the number of edges on a longest path to a node without children. -/
theorem C29_height (ch : ι → List ι) (S : ι) (hac : Acyclic ch) : IsLongestPath ch S (height ch S) := height_longest hac S

example : Acyclic skipDag := skipDag_acyclic

/-- C29 for `ComputeHeight`, part: if all paths from the root to the same node have the same length, it returns the number of edges on a longest
path to a leaf; it always returns, and never more than that. Missing: it can return less (`C29_computeHeight_refuted`). -/
theorem C29_computeHeight_partial (N : Net ι F) (S : ι) (hac : Acyclic N.ch) (hl : LeavesAreLeaves N S) :
    ∃ h, computeHeight N.ch N.type S = some h ∧ h ≤ height N.ch S ∧ (Graded N.ch S → IsLongestPath N.ch S h) := by
  obtain ⟨h, h1, h2, h3⟩ := computeHeight_spec N.ch N.type S
  obtain ⟨⟨b, hb, hb0⟩, hmax⟩ := height_longest hac S
  have hleaf : ∀ m, N.type m = .leaf → N.ch m = [] := by
    intro m hm
    unfold Net.type at hm; unfold Net.ch
    cases hk : N.kind m <;> simp_all
  have hle : h ≤ height N.ch S := by
    rcases h2 with rfl | ⟨m, hm, ht⟩
    · exact Nat.zero_le _
    · exact hmax h m hm (hleaf m ht)
  refine ⟨h, h1, hle, fun hg => ?_⟩
  have hbl : N.type b = .leaf := by
    by_contra hne
    exact hl b hb.reach hne hb0
  obtain ⟨d, hd, hdh⟩ := h3 b hb.reach hbl
  have := hg b _ _ hd hb
  have e : h = height N.ch S := by omega
  rw [e]; exact ⟨⟨b, hb, hb0⟩, hmax⟩

example (w : List F) (l : Leaf F) : Acyclic (diamondNet w l).ch ∧ LeavesAreLeaves (diamondNet w l) 0 ∧ Graded (diamondNet w l).ch 0 := by
  refine ⟨(diamondNet_ok w l).1, ?_, ?_⟩
  · intro n _ hn
    fin_cases n <;> first | exact absurd rfl hn | (rw [diamondNet_ch]; decide)
  · have key : ∀ n j, Steps (diamondNet w l).ch j 0 n → j = (![0, 1, 1, 2] : Fin 4 → Nat) n := by
      rw [diamondNet_ch]
      intro n j h
      generalize h0 : (0 : Fin 4) = z at h
      induction h with
      | zero a => subst h0; rfl
      | @succ k a b c _ hc ih =>
        have hstep : ∀ b c, c ∈ diamond b → (![0, 1, 1, 2] : Fin 4 → Nat) b + 1 = (![0, 1, 1, 2] : Fin 4 → Nat) c := by decide
        rw [ih h0]; exact hstep b c hc
    intro n j k hj hk
    rw [key n j hj, key n k hk]

/-- C29 is false for `ComputeHeight`: of a chain 0 → 2 → 1 → 3 with the bridging edge 0 → 1 it returns 2, since node 1 keeps the depth
of its first discovery. -/
theorem C29_computeHeight_refuted : ∃ N : Net (Fin 4) F, Acyclic N.ch ∧ LeavesAreLeaves N 0 ∧ computeHeight N.ch N.type 0 = some 2 ∧ IsLongestPath N.ch 0 3 := by
  refine ⟨skipDeep, skipDeep_acyclic, skipDeep_leaves.1, ?_, ?_⟩
  · have ht : (skipDeep : Net (Fin 4) F).type = ![.product, .product, .product, .leaf] := by funext i; fin_cases i <;> rfl
    rw [skipDeep_ch, ht]; decide
  · have := height_longest skipDeep_acyclic (0 : Fin 4) (ch := (skipDeep : Net (Fin 4) F).ch)
    have e : height (skipDeep : Net (Fin 4) F).ch 0 = 3 := by rw [skipDeep_ch]; decide
    rwa [e] at this

end Gospn
