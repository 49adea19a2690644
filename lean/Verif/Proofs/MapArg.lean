import Verif.Proofs.MapState
import Verif.Proofs.Search
set_option linter.unusedSectionVars false
/-
The states returned by `ArgMax` and `StoreMAP`.
-/
namespace Gospn
open Spec GoFloat

variable {ι : Type} [Fintype ι]

/-- What makes a network suitable for MAP queries under `I`. -/
structure MapNet (N : Net ι XR) (S : ι) (dom : Int → Set Int) (I : VarSet) : Prop where
  acyclic : Acyclic N.ch
  complete : IsComplete N S
  decomposable : IsDecomposable N S
  weights : NonnegWeights N S
  leaves : ∀ n l, Reach N.ch S n → N.kind n = .leaf l → MaxLeaf dom l
  modes : ∀ n l, Reach N.ch S n → N.kind n = .leaf l → ModeLeaf dom I l
  evidence : InDomain N S dom I

theorem MapNet.leavesMax {N : Net ι XR} {S : ι} {dom : Int → Set Int} {I : VarSet} (h : MapNet N S dom I) : LeavesMax N S I :=
  leaves_max h.leaves h.evidence

theorem argMaxChild_cases {α F : Type} [GoFloat F] (l : List (α × F)) : ∀ acc : Option α × F,
    argMaxChild l acc = acc ∨ ∃ c m, argMaxChild l acc = (some c, m) ∧ (c, m) ∈ l := by
  induction l with
  | nil => intro acc; exact Or.inl rfl
  | cons a l ih =>
    intro acc
    obtain ⟨c, m⟩ := a
    obtain ⟨mc, mx⟩ := acc
    simp only [argMaxChild]
    rcases ih (if lt mx m then (some c, m) else (mc, mx)) with h | ⟨c', m', h1, h2⟩
    · rw [h]
      by_cases hl : lt mx m = true
      · simp [hl]
      · simp [hl]
    · exact Or.inr ⟨c', m', h1, by simp [h2]⟩

theorem foldl_override_none {F : Type} [GoFloat F] (rs : List (VarSet × F)) : ∀ (M : VarSet) (a : F) (v : Int), (∀ r ∈ rs, r.1 v = none) →
    (rs.foldl (fun (p : VarSet × F) r => (p.1.override r.1, GoFloat.add p.2 r.2)) (M, a)).1 v = M v := by
  induction rs with
  | nil => intro M a v _; rfl
  | cons r rs ih =>
    intro M a v h
    rw [List.foldl_cons, ih _ _ v (fun r' hr' => h r' (by simp [hr']))]
    simp [VarSet.override, h r (by simp)]

theorem foldl_override_mem {F : Type} [GoFloat F] (rs : List (VarSet × F)) : ∀ (M : VarSet) (a : F),
    rs.Pairwise (fun r s => ∀ v, r.1 v = none ∨ s.1 v = none) → ∀ r ∈ rs, ∀ v x, r.1 v = some x →
    (rs.foldl (fun (p : VarSet × F) r => (p.1.override r.1, GoFloat.add p.2 r.2)) (M, a)).1 v = some x := by
  induction rs with
  | nil => intro M a _ r hr; cases hr
  | cons r rs ih =>
    intro M a hp r' hr' v x hv
    rw [List.pairwise_cons] at hp
    rw [List.foldl_cons]
    rcases List.mem_cons.1 hr' with rfl | hr'
    · rw [foldl_override_none rs _ _ v (fun s hs => (hp.1 s hs v).resolve_left (by simp [hv]))]
      simp [VarSet.override, hv]
    · exact ih _ _ hp.2 r' hr' v x hv

theorem foldl_override_inv {F : Type} [GoFloat F] (rs : List (VarSet × F)) : ∀ (M : VarSet) (a : F) (v x : Int),
    (rs.foldl (fun (p : VarSet × F) r => (p.1.override r.1, GoFloat.add p.2 r.2)) (M, a)).1 v = some x → M v = some x ∨ ∃ r ∈ rs, r.1 v = some x := by
  induction rs with
  | nil => intro M a v x h; exact Or.inl h
  | cons r rs ih =>
    intro M a v x h
    rw [List.foldl_cons] at h
    rcases ih _ _ v x h with h | ⟨s, hs, h⟩
    · simp only [VarSet.override] at h
      cases hr : r.1 v with
      | none => rw [hr] at h; exact Or.inl (by simpa using h)
      | some y => rw [hr] at h; exact Or.inr ⟨r, by simp, by rw [hr]; simpa using h⟩
    · exact Or.inr ⟨s, by simp [hs], h⟩

theorem unlog_fin_ne (a : ℝ) : unlog (.fin a) ≠ 0 := by simp [unlog]

theorem isLogProb_fin_of {x : XR} (hx : IsLogProb x) (h : unlog x ≠ 0) : ∃ a, x = .fin a := by
  rcases IsLogProb.cases hx with rfl | h'
  · simp at h
  · exact h'

/-- A sum node of positive MAP probability: the weighted child values, and where the maximum is. -/
theorem MapNet.sum_choice {N : Net ι XR} {S : ι} {dom : Int → Set Int} {I : VarSet} (h : MapNet N S dom I) {n : ι} (hn : Reach N.ch S n)
    {cs : List ι} {r : List ℝ} (hk : N.kind n = .sum cs (r.map XR.fin)) {a : ℝ} (ha : N.max I n = some (.fin a)) {J : VarSet}
    (hJ : InDomain N S dom J) (hext : Extends N n I J) {c : ι} {i : Nat} (hi : cs[i]? = some c) {p : ℝ} (hp : r[i]? = some p)
    (hc : p * N.pmax I c = unlog (.fin a)) (hJc : N.max J c = N.max I c) : N.max J n = some (.fin a) := by
  obtain ⟨g', us', k1, k2, k3, k4, k5, k6, k7, k8⟩ := Net.max_sum h.acyclic h.weights (leaves_max h.leaves hJ) hn hk
  refine Net.max_of_pmax ⟨_, k6, (maxCompute_spec us' k4).1⟩ trivial (le_antisymm ?_ ?_)
  · rw [← Net.pmax_some ha]; exact Net.pmax_mono h.acyclic h.weights h.leaves h.evidence hJ n hn hext
  · have h1 : (us'.map unlog)[i]? = some (p * N.pmax J c) := by rw [k5, List.getElem?_zipWith]; simp [hi, hp]
    rw [List.getElem?_map, Option.map_eq_some_iff] at h1
    obtain ⟨u, hu, hu'⟩ := h1
    have h2 : N.pmax J c = N.pmax I c := by unfold Net.pmax; rw [hJc]
    rw [← hc, Net.pmax_some k6, ← h2, ← hu']
    exact (maxCompute_spec us' k4).2.2 u (List.mem_of_getElem? hu)

theorem mem_zip_index {α β : Type} {l : List α} {m : List β} {a : α} {b : β} (h : (a, b) ∈ l.zip m) : ∃ i : Nat, l[i]? = some a ∧ m[i]? = some b := by
  obtain ⟨i, hi, he⟩ := List.getElem_of_mem h
  have hi' := hi
  rw [List.length_zip] at hi'
  refine ⟨i, ?_, ?_⟩
  · rw [List.getElem?_eq_getElem (by omega)]; rw [List.getElem_zip] at he; simp at he; simp [he.1]
  · rw [List.getElem?_eq_getElem (by omega)]; rw [List.getElem_zip] at he; simp at he; simp [he.2]

/-- The state of `ArgMax`. -/
theorem MapNet.argMax_state {N : Net ι XR} {S : ι} {dom : Int → Set Int} {I : VarSet} (h : MapNet N S dom I) :
    ∀ n, Reach N.ch S n → ∀ a, N.max I n = some (.fin a) →
      ∃ M, N.argMax I n = some (M, .fin a) ∧ (∀ v, (∃ x, M v = some x) ↔ InScope N n v) ∧ (∀ v x, InScope N n v → I v = some x → M v = some x) ∧
        (∀ v x, M v = some x → x ∈ dom v) ∧ N.max M n = some (.fin a) := by
  obtain ⟨rank, hr⟩ := id h.acyclic
  intro n
  induction hn : rank n using Nat.strong_induction_on generalizing n with
  | _ k ih =>
    intro hreach a ha
    have ihc := fun c (hc : c ∈ N.ch n) =>
      ih (rank c) (by rw [← hn]; exact hr n c hc) c rfl (Relation.ReflTransGen.tail hreach hc)
    cases hk : N.kind n with
    | leaf l =>
      have hml : ∀ K, N.max K n = l.max K := fun K => by rw [Net.max_unfold h.acyclic]; simp [Net.maxStep, hk]
      have hsc : InScope N S (leafVar l) := ⟨n, l, hreach, hk, rfl⟩
      obtain ⟨x, h1, h2, h3, h4⟩ := leaf_argMax_spec (h.leaves n l hreach hk) (h.modes n l hreach hk) (h.evidence _ hsc)
        (a := a) (by rw [← hml]; exact ha)
      refine ⟨VarSet.single (leafVar l) x, ?_, ?_, ?_, ?_, ?_⟩
      · rw [Net.argMax_unfold h.acyclic]; simp [Net.argMaxStep, hk, h1]
      · intro v; rw [InScope.of_leaf hk]
        by_cases hv : v = leafVar l
        · subst hv; simp [VarSet.single]
        · simp [VarSet.single, hv, Ne.symm hv]
      · intro v y hv hy
        rw [InScope.of_leaf hk] at hv; subst hv
        rw [h2 y hy]; simp [VarSet.single]
      · intro v y hv
        simp only [VarSet.single] at hv
        split at hv
        · rename_i he; subst he; simp at hv; subst hv; exact h3
        · cases hv
      · rw [hml]; exact h4 _ (by simp [VarSet.single])
    | product cs =>
      have hcs : N.ch n = cs := by simp [Net.ch, hk]
      rw [hcs] at ihc
      have hmax := Net.max_ok h.acyclic h.weights h.leavesMax
      have hprod := Net.max_product h.acyclic h.weights h.leavesMax hreach hk
      rw [Net.pmax_some ha] at hprod
      have hfin : ∀ c ∈ cs, ∃ b, N.max I c = some (.fin b) := by
        intro c hc
        obtain ⟨x, hx, hxl⟩ := hmax c (Relation.ReflTransGen.tail hreach (hcs ▸ hc : c ∈ N.ch n))
        have hne : N.pmax I c ≠ 0 := by
          intro h0
          have : (cs.map (N.pmax I)).prod = 0 := List.prod_eq_zero (by rw [← h0]; exact List.mem_map_of_mem hc)
          rw [this] at hprod; exact unlog_fin_ne a hprod
        rw [Net.pmax_some hx] at hne
        obtain ⟨b, rfl⟩ := isLogProb_fin_of hxl hne
        exact ⟨b, hx⟩
      have hall : ∀ c ∈ cs, ∃ R : VarSet × XR, N.argMax I c = some R ∧ N.max I c = some R.2 ∧ (∀ v, (∃ x, R.1 v = some x) ↔ InScope N c v) ∧
          (∀ v x, InScope N c v → I v = some x → R.1 v = some x) ∧ (∀ v x, R.1 v = some x → x ∈ dom v) ∧ N.max R.1 c = some R.2 := by
        intro c hc
        obtain ⟨b, hb⟩ := hfin c hc
        obtain ⟨M, h1, h2, h3, h4, h5⟩ := ihc c hc b hb
        exact ⟨(M, .fin b), h1, hb, h2, h3, h4, h5⟩
      have : Nonempty (VarSet × XR) := ⟨(fun _ => none, .nan)⟩
      choose! R hR using hall
      have hdis : (cs.map R).Pairwise (fun r s => ∀ v, r.1 v = none ∨ s.1 v = none) := by
        rw [List.pairwise_map]
        have := h.decomposable n hreach cs hk
        refine this.imp_of_mem ?_
        intro c d hc hd hcd v
        by_contra hcon
        rw [not_or] at hcon
        exact hcd v ⟨((hR c hc).2.2.1 v).1 (Option.ne_none_iff_exists'.1 hcon.1), ((hR d hd).2.2.1 v).1 (Option.ne_none_iff_exists'.1 hcon.2)⟩
      set res := (cs.map R).foldl (fun (p : VarSet × XR) r => (p.1.override r.1, GoFloat.add p.2 r.2)) ((fun _ => none : VarSet), GoFloat.ofInt 0) with hres
      have harg : N.argMax I n = some res := by
        rw [Net.argMax_unfold h.acyclic]
        simp only [Net.argMaxStep, hk, mapM_eq_some (fun c hc => (hR c hc).1), Option.map_some]
        rfl
      have hval : res.2 = .fin a := by
        have h1 := foldl_pair_snd (cs.map R) (fun _ => none) (GoFloat.ofInt 0)
        have h2 : N.max I n = some (prodCompute ((cs.map R).map Prod.snd)) := by
          rw [Net.max_unfold h.acyclic, List.map_map]
          simp only [Net.maxStep, hk, mapM_eq_some (fun c hc => (hR c hc).2.1), Option.map_some]
          rfl
        rw [ha] at h2
        have h3 := Option.some.inj h2
        rw [h3]; exact h1
      have hM : ∀ c ∈ cs, ∀ v x, (R c).1 v = some x → res.1 v = some x := fun c hc v x hv =>
        foldl_override_mem (cs.map R) _ _ hdis (R c) (List.mem_map_of_mem hc) v x hv
      have hMi : ∀ v x, res.1 v = some x → ∃ c ∈ cs, (R c).1 v = some x := by
        intro v x hv
        rcases foldl_override_inv (cs.map R) _ _ v x hv with h0 | ⟨r, hr, hv⟩
        · cases h0
        · obtain ⟨c, hc, rfl⟩ := List.mem_map.1 hr; exact ⟨c, hc, hv⟩
      have hdomM : ∀ v x, res.1 v = some x → x ∈ dom v := by
        intro v x hv; obtain ⟨c, hc, hv⟩ := hMi v x hv; exact (hR c hc).2.2.2.2.1 v x hv
      refine ⟨res.1, by rw [harg, ← hval], ?_, ?_, hdomM, ?_⟩
      · intro v
        constructor
        · rintro ⟨x, hx⟩
          obtain ⟨c, hc, hv⟩ := hMi v x hx
          exact InScope.child (hcs ▸ hc : c ∈ N.ch n) (((hR c hc).2.2.1 v).1 ⟨x, hv⟩)
        · intro hs
          rcases InScope.inv hs with ⟨l, hl', _⟩ | ⟨c, hc, hs⟩
          · rw [hk] at hl'; cases hl'
          · rw [hcs] at hc
            obtain ⟨x, hx⟩ := ((hR c hc).2.2.1 v).2 hs
            exact ⟨x, hM c hc v x hx⟩
      · intro v x hs hI
        rcases InScope.inv hs with ⟨l, hl', _⟩ | ⟨c, hc, hs⟩
        · rw [hk] at hl'; cases hl'
        · rw [hcs] at hc
          exact hM c hc v x ((hR c hc).2.2.2.1 v x hs hI)
      · have hJ : InDomain N S dom res.1 := fun v _ x hx => hdomM v x hx
        have hmr : ∀ c ∈ cs, N.max res.1 c = some (R c).2 := by
          intro c hc
          rw [← (hR c hc).2.2.2.2.2]
          apply Net.max_congr h.acyclic
          intro v hv
          obtain ⟨x, hx⟩ := ((hR c hc).2.2.1 v).2 hv
          rw [hx]; exact hM c hc v x hx
        rw [← ha, Net.max_unfold h.acyclic, Net.max_unfold h.acyclic]
        simp only [Net.maxStep, hk, mapM_eq_some hmr, mapM_eq_some (fun c hc => (hR c hc).2.1)]
    | sum cs w =>
      have hcs : N.ch n = cs := by simp [Net.ch, hk]
      rw [hcs] at ihc
      obtain ⟨_, r, rfl, _, _⟩ := h.weights n hreach cs w hk
      obtain ⟨g, us, h1, h2, h3, h4, h5, h6, h7, h8⟩ := Net.max_sum h.acyclic h.weights h.leavesMax hreach hk
      have hm : maxCompute us = .fin a := by rw [ha] at h6; exact (Option.some.inj h6).symm
      have hv := argMaxChild_value cs us (none, ninf) h3
      have hv' : (argMaxChild (cs.zip us) (none, ninf)).2 = .fin a := hv.trans hm
      rcases argMaxChild_cases (cs.zip us) (none, ninf) with h0 | ⟨c, m, h0, hmem⟩
      · rw [h0] at hv'; cases hv'
      · rw [h0] at hv'; simp only at hv'; subst hv'
        obtain ⟨i, hi, hu⟩ := mem_zip_index hmem
        have hc : c ∈ cs := List.mem_of_getElem? hi
        have hri : ∃ p, r[i]? = some p := by
          have := (List.getElem?_eq_some_iff.1 hi).1
          exact ⟨r[i]'(by omega), List.getElem?_eq_getElem _⟩
        obtain ⟨p, hp⟩ := hri
        have hpc : p * N.pmax I c = unlog (.fin a) := by
          have := congrArg (fun l => l[i]?) h5
          simp only [List.getElem?_map, hu, List.getElem?_zipWith, hp, hi, Option.map_some] at this
          exact (Option.some.inj this).symm
        obtain ⟨hmc, hlc, hpl⟩ := h1 c hc
        obtain ⟨b, hb⟩ := isLogProb_fin_of hlc (by rw [hpl]; intro h0; rw [h0, mul_zero] at hpc; exact unlog_fin_ne a hpc.symm)
        rw [hb] at hmc
        obtain ⟨M, g1, g2, g3, g4, g5⟩ := ihc c hc b hmc
        have hsame : ∀ v, InScope N c v ↔ InScope N n v := by
          intro v
          constructor
          · intro hs; exact InScope.child (hcs ▸ hc : c ∈ N.ch n) hs
          · intro hs
            rcases InScope.inv hs with ⟨l, hl', _⟩ | ⟨d, hd, hs⟩
            · rw [hk] at hl'; cases hl'
            · exact h.complete n hreach cs _ hk d (hcs ▸ hd) c hc v hs
        refine ⟨M, ?_, fun v => (g2 v).trans (hsame v), fun v x hs => g3 v x ((hsame v).2 hs), g4, ?_⟩
        · rw [Net.argMax_unfold h.acyclic]
          simp only [Net.argMaxStep, hk, mapM_eq_some (fun c hc => (h1 c hc).1), Option.bind_some, h2, h0]
          rw [g1]; rfl
        · exact h.sum_choice hreach hk ha (fun v _ x hx => g4 v x hx) (fun v hs x hx => g3 v x ((hsame v).2 hs) hx) hi hp hpc (by rw [g5, hmc])

/-- `ArgMax` returns if the MAP probability is positive; no validity is needed. -/
theorem Net.argMax_returns {N : Net ι XR} (hac : Acyclic N.ch) {S : ι} {I : VarSet} (hw : NonnegWeights N S) (hl : LeavesMax N S I)
    (hla : ∀ n l, Reach N.ch S n → N.kind n = .leaf l → l.argMax I ≠ none) :
    ∀ n, Reach N.ch S n → ∀ a, N.max I n = some (.fin a) → N.argMax I n ≠ none := by
  obtain ⟨rank, hr⟩ := id hac
  intro n
  induction hn : rank n using Nat.strong_induction_on generalizing n with
  | _ k ih =>
    intro hreach a ha
    have ihc := fun c (hc : c ∈ N.ch n) =>
      ih (rank c) (by rw [← hn]; exact hr n c hc) c rfl (Relation.ReflTransGen.tail hreach hc)
    rw [Net.argMax_unfold hac]
    cases hk : N.kind n with
    | leaf l => simp only [Net.argMaxStep, hk]; exact hla n l hreach hk
    | product cs =>
      have hcs : N.ch n = cs := by simp [Net.ch, hk]
      rw [hcs] at ihc
      have hprod := Net.max_product hac hw hl hreach hk
      rw [Net.pmax_some ha] at hprod
      have hall : ∀ c ∈ cs, ∃ R : VarSet × XR, N.argMax I c = some R := by
        intro c hc
        obtain ⟨x, hx, hxl⟩ := Net.max_ok hac hw hl c (Relation.ReflTransGen.tail hreach (hcs ▸ hc : c ∈ N.ch n))
        have hne : N.pmax I c ≠ 0 := by
          intro h0
          have : (cs.map (N.pmax I)).prod = 0 := List.prod_eq_zero (by rw [← h0]; exact List.mem_map_of_mem hc)
          rw [this] at hprod; exact unlog_fin_ne a hprod
        rw [Net.pmax_some hx] at hne
        obtain ⟨b, rfl⟩ := isLogProb_fin_of hxl hne
        exact Option.ne_none_iff_exists'.1 (ihc c hc b hx)
      have : Nonempty (VarSet × XR) := ⟨(fun _ => none, .nan)⟩
      choose! R hR using hall
      simp [Net.argMaxStep, hk, mapM_eq_some hR]
    | sum cs w =>
      have hcs : N.ch n = cs := by simp [Net.ch, hk]
      rw [hcs] at ihc
      obtain ⟨_, r, rfl, _, _⟩ := hw n hreach cs w hk
      obtain ⟨g, us, h1, h2, h3, h4, h5, h6, h7, h8⟩ := Net.max_sum hac hw hl hreach hk
      have hm : maxCompute us = .fin a := by rw [ha] at h6; exact (Option.some.inj h6).symm
      have hv' : (argMaxChild (cs.zip us) (none, ninf)).2 = .fin a := (argMaxChild_value cs us (none, ninf) h3).trans hm
      rcases argMaxChild_cases (cs.zip us) (none, ninf) with h0 | ⟨c, m, h0, hmem⟩
      · rw [h0] at hv'; cases hv'
      · rw [h0] at hv'; simp only at hv'; subst hv'
        obtain ⟨i, hi, hu⟩ := mem_zip_index hmem
        have hc : c ∈ cs := List.mem_of_getElem? hi
        have hri : ∃ p, r[i]? = some p := by
          have := (List.getElem?_eq_some_iff.1 hi).1
          exact ⟨r[i]'(by omega), List.getElem?_eq_getElem _⟩
        obtain ⟨p, hp⟩ := hri
        have hpc : p * N.pmax I c = unlog (.fin a) := by
          have := congrArg (fun l => l[i]?) h5
          simp only [List.getElem?_map, hu, List.getElem?_zipWith, hp, hi, Option.map_some] at this
          exact (Option.some.inj this).symm
        obtain ⟨hmc, hlc, hpl⟩ := h1 c hc
        obtain ⟨b, hb⟩ := isLogProb_fin_of hlc (by rw [hpl]; intro h0; rw [h0, mul_zero] at hpc; exact unlog_fin_ne a hpc.symm)
        rw [hb] at hmc
        have := ihc c hc b hmc
        simp only [Net.argMaxStep, hk, mapM_eq_some (fun c hc => (h1 c hc).1), Option.bind_some, h2, h0]
        simpa using this

/-- At a sum node whose MAP probability is zero `ArgMax` panics. -/
theorem Net.argMax_panics {N : Net ι XR} (hac : Acyclic N.ch) {S : ι} {I : VarSet} (hw : NonnegWeights N S) (hl : LeavesMax N S I) {n : ι}
    (hreach : Reach N.ch S n) {cs : List ι} {w : List XR} (hk : N.kind n = .sum cs w) (ha : N.max I n = some .ninf) : N.argMax I n = none := by
  obtain ⟨_, r, rfl, _, _⟩ := hw n hreach cs w hk
  obtain ⟨g, us, h1, h2, h3, h4, h5, h6, h7, h8⟩ := Net.max_sum hac hw hl hreach hk
  have hm : maxCompute us = .ninf := by rw [ha] at h6; exact (Option.some.inj h6).symm
  have hall : ∀ u ∈ us, u = .ninf := by
    intro u hu
    have := (maxCompute_spec us h4).2.2 u hu
    rw [hm] at this
    rcases IsLogProb.cases (h4 u hu) with h | ⟨b, rfl⟩
    · exact h
    · simp only [unlog] at this; exact absurd this (not_le.2 (Real.exp_pos b))
  have key : ∀ (l : List (ι × XR)), (∀ p ∈ l, p.2 = .ninf) → argMaxChild l (none, .ninf) = (none, .ninf) := by
    intro l
    induction l with
    | nil => intro _; rfl
    | cons p l ih =>
      intro h
      obtain ⟨c, u⟩ := p
      have hu : u = .ninf := h (c, u) (by simp)
      subst hu
      simp only [argMaxChild, XR.g_lt, XR.lt]
      simpa using ih (fun q hq => h q (by simp [hq]))
  rw [Net.argMax_unfold hac]
  have := key (cs.zip us) (fun p hp => hall p.2 (List.of_mem_zip (a := p.1) (b := p.2) hp).2)
  simp only [Net.argMaxStep, hk, mapM_eq_some (fun c hc => (h1 c hc).1), Option.bind_some, h2]
  rw [show argMaxChild (cs.zip us) (none, (ninf : XR)) = (none, .ninf) from this]

end Gospn
