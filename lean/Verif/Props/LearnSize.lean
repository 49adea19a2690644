/-
C136: the size of a learned network.
-/
import Verif.Props.LearnCalls
import Verif.Spec.Size

set_option linter.unusedSectionVars false
set_option linter.unusedSimpArgs false

namespace Gospn
open GoFloat Spec
variable {ι F : Type} [GoFloat F]

/-- Clustering keeps the instances, for any arithmetic that holds their values. -/
theorem clustered_perm_exact {k : Int} {eps : F} {mp : Int} {D : List VarSet} {C : List (List VarSet)} (h : Clustered k eps mp D C) (hs : SameVars D) (hx : ExactData F D) :
    C.flatten.Perm D := by
  obtain ⟨hpos, _⟩ := clustered_lengths h
  have hne : D ≠ [] := by rintro rfl; simp at hpos
  have hr := hx.2
  obtain ⟨ord, ho, h⟩ := h
  have ho : OrdersOf ord D := ho
  split at h
  · rename_i hk
    obtain ⟨_, assign, ha, hC⟩ := h
    obtain ⟨n, rfl⟩ := Int.eq_ofNat_of_zero_le (show 0 ≤ k by omega)
    unfold kMeansDataI at hC
    obtain ⟨⟨M, Sc⟩, hm, hC⟩ := Option.bind_eq_some_iff.1 hC
    obtain ⟨G, hG, hC⟩ := Option.bind_eq_some_iff.1 hC
    have hlen := (dataToMatrix_length hm).1
    obtain ⟨M', Sc', C', e1, e2, _, _, e5⟩ := C39_groups (F := F) (k := n) (G := G) hne ho hs hr ((ha _ _ hG).trans hlen) (guessToData_bounds hC)
    rw [hm] at e1
    simp only [Option.some.injEq, Prod.mk.injEq] at e1
    obtain ⟨rfl, rfl⟩ := e1
    have : C = C' := by
      have := hC.symm.trans e2
      simpa using this
    exact this ▸ e5
  · obtain ⟨_, _, _, _, _, _, e, _⟩ := C38_returned_partial hne ho hs hr eps mp h
    exact e

/-- The nodes below several nodes. -/
theorem union_nodes {α : Type} {ch : ι → List ι} (f : α → Nat) : ∀ (K : List α) (cs : List ι), cs.length = K.length →
    (∀ (i : Nat) s c, K[i]? = some s → cs[i]? = some c → AtMostNodes ch c (f s)) →
    ∃ l : List ι, l.length ≤ (K.map f).sum ∧ ∀ c ∈ cs, ∀ v, Reach ch c v → v ∈ l := by
  intro K
  induction K with
  | nil =>
    intro cs hlen _
    have : cs = [] := List.length_eq_zero_iff.1 hlen
    subst this
    exact ⟨[], by simp, by simp⟩
  | cons s K ih =>
    intro cs hlen h
    match cs, hlen with
    | c :: cs, hlen =>
      obtain ⟨l1, a1, a2⟩ := h 0 s c rfl rfl
      obtain ⟨l2, b1, b2⟩ := ih cs (by simpa using hlen) (fun i s' c' h1 h2 => h (i + 1) s' c' (by simpa using h1) (by simpa using h2))
      refine ⟨l1 ++ l2, ?_, ?_⟩
      · simp only [List.length_append, List.map_cons, List.sum_cons]; omega
      · intro c' hc' v hv
        rcases List.mem_cons.1 hc' with rfl | hc'
        · exact List.mem_append.2 (Or.inl (a2 v hv))
        · exact List.mem_append.2 (Or.inr (b2 c' hc' v hv))

theorem parent_nodes {ch : ι → List ι} {u : ι} {l : List ι} {b : Nat} (hl : l.length + 1 ≤ b) (h : ∀ c ∈ ch u, ∀ v, Reach ch c v → v ∈ l) : AtMostNodes ch u b := by
  refine ⟨u :: l, by simpa using hl, fun v hv => ?_⟩
  rcases Relation.ReflTransGen.cases_head hv with rfl | ⟨c, hc, hcv⟩
  · simp
  · exact List.mem_cons_of_mem _ (h c hc v hcv)

theorem AtMostNodes_mono {ch : ι → List ι} {u : ι} {a b : Nat} (h : AtMostNodes ch u a) (hab : a ≤ b) : AtMostNodes ch u b := by
  obtain ⟨l, h1, h2⟩ := h
  exact ⟨l, by omega, h2⟩

/-- The nodes of a univariate distribution: a leaf, or a sum of `g` leaves. -/
def univariateNodes (g : Int) : Nat := if g ≤ 0 then 1 else g.toNat + 1

theorem univariate_nodes {N : Net ι F} {g : Int} {v : Variable} {D : List VarSet} {u : ι} (h : IsUnivariate N g v D u) : AtMostNodes N.ch u (univariateNodes g) := by
  have leaf : ∀ (c : ι) (l : Leaf F), N.kind c = .leaf l → AtMostNodes N.ch c 1 := by
    intro c l hl
    refine parent_nodes (l := []) (by simp) (fun x hx => ?_)
    simp [Net.ch, hl] at hx
  unfold IsUnivariate at h
  unfold univariateNodes
  split at h
  · rename_i hg
    obtain ⟨_, _, l, _, _, _, hk⟩ := h
    rw [if_pos hg]
    exact leaf u l hk
  · rename_i hg
    rw [if_neg hg]
    obtain ⟨Q, cs, hQ, hlen, hk, hc⟩ := h
    have hQl : Q.length = g.toNat := by
      unfold partitionQuantiles at hQ
      rw [if_neg hg] at hQ
      have gen : ∀ (L : List Nat) (h : Nat → Option (List F)) (Q : List (List F)), L.mapM h = some Q → Q.length = L.length := by
        intro L h
        induction L with
        | nil => intro Q e; simp at e; subst e; rfl
        | cons a L ih =>
          intro Q e
          simp only [List.mapM_cons, bind, Option.bind_eq_some_iff, pure, Option.some.injEq] at e
          obtain ⟨_, _, Q', e', rfl⟩ := e
          simp [ih Q' e']
      simpa using gen _ _ _ hQ
    obtain ⟨l, l1, l2⟩ := union_nodes (ch := N.ch) (fun _ => 1) Q cs hlen (fun i q c h1 h2 => by
      obtain ⟨mu, sigma, _, _, hl⟩ := hc i q c h1 h2
      exact leaf c _ hl)
    refine parent_nodes (l := l) ?_ (fun c hcc => l2 c ?_)
    · simp at l1; omega
    · simpa [Net.ch, hk] using hcc

/-- Sizes of parts: one less for each part. -/
theorem sum_parts {α : Type} (A : Nat) (hA : 0 < A) (K : List (List α)) (hne : [] ∉ K) : (K.map fun s => A * s.length - 1).sum + K.length = A * K.flatten.length := by
  induction K with
  | nil => simp
  | cons s K ih =>
    simp only [List.mem_cons, not_or] at hne
    have h := ih hne.2
    have hs : 0 < s.length := List.length_pos_iff.2 (fun e => hne.1 e.symm)
    have : 0 < A * s.length := Nat.mul_pos hA hs
    simp only [List.map_cons, List.sum_cons, List.length_cons, List.flatten_cons, List.length_append, Nat.mul_add]
    omega

/-- No sum below `u` has a weight `0/m`, as it is given to the child for an empty cluster. -/
def NoEmptyCluster (N : Net ι F) (u : ι) : Prop :=
  ∀ n cs ws, Reach N.ch u n → N.kind n = .sum cs ws → ∀ m : Int, 0 < m → div (ofInt 0) (ofInt m) ∉ ws

theorem NoEmptyCluster_child {N : Net ι F} {u c : ι} {k : Int} (h : k ≤ 0 ∨ NoEmptyCluster N u) (hc : c ∈ N.ch u) : k ≤ 0 ∨ NoEmptyCluster N c :=
  h.imp id fun h n cs ws hr => h n cs ws (Relation.ReflTransGen.head hc hr)

theorem dbscan_nonempty {k : Int} (hk : k ≤ 0) {eps : F} {mp : Int} {D : List VarSet} {C : List (List VarSet)} (hs : SameVars D) (hx : ExactData F D) (hC : Clustered k eps mp D C) : [] ∉ C := by
  obtain ⟨hpos, _⟩ := clustered_lengths hC
  have hne : D ≠ [] := by rintro rfl; simp at hpos
  obtain ⟨ord, ho, h⟩ := hC
  rw [if_neg (by omega)] at h
  exact (C38_returned_partial hne ho hs hx.2 eps mp h).choose_spec.choose_spec.choose_spec.2.2.2.2.1

/-- A learned network has at most `(B + 1) n m - 1` nodes for `n` variables and `m` instances, if no cluster is empty. -/
theorem learned_nodes {N : Net ι F} {g k : Int} {eps : F} {mp : Int} {cats : Int → Int}
    {Sc : VarScope} {D : List VarSet} {u : ι} (h : Learned N g k eps mp Sc D u) : (k ≤ 0 ∨ NoEmptyCluster N u) → ScopeOk cats Sc → SameVars D → ExactData F D → D ≠ [] → ∀ keys, Sc.Order keys → keys ≠ [] →
    AtMostNodes N.ch u ((univariateNodes g + 1) * keys.length * D.length - 1) := by
  have hB : 0 < univariateNodes g := by unfold univariateNodes; split <;> omega
  induction h with
  | @leaf Sc D u key v ho _ hu =>
    intro _ _ _ _ hD keys hk hkne
    have h1 := order_length ho hk
    have h2 := List.length_pos_iff.2 hD
    refine AtMostNodes_mono (univariate_nodes hu) ?_
    rw [← h1]
    simp only [List.length_cons, List.length_nil, zero_add, mul_one]
    have : (univariateNodes g + 1) * 1 ≤ (univariateNodes g + 1) * D.length := Nat.mul_le_mul_left _ h2
    omega
  | @product Sc D u keys0 K scs cs ds ho hn hK hK1 hlen hsub hl hu hp ih =>
    intro hcl hok hs hx hD keys hk hkne
    obtain ⟨keys1, ho1, hpm, hne⟩ := indepSets_spec hok hK
    have hpos := List.length_pos_iff.2 hD
    obtain ⟨l, l1, l2⟩ := union_nodes (ch := N.ch) (fun s : List Int => (univariateNodes g + 1) * D.length * s.length - 1) K cs hlen (fun i s c h1 h2 => by
      have hsK : s ∈ K := List.mem_of_getElem? h1
      have hnd : s.Nodup := (List.nodup_flatten.1 (hpm.nodup_iff.2 ho1.1)).1 s hsK
      have hcu : c ∈ N.ch u := by simpa [Net.ch, hu] using hp.mem_iff.2 (List.mem_of_getElem? h2)
      have := ih i s c h1 h2 (NoEmptyCluster_child hcl hcu) (subScope_ok (hsub i s h1) hok) (sameVars_sub _ _) ?_ ?_ s (subScope_order (hsub i s h1) hnd) (fun e => hne (e ▸ hsK))
      · rw [length_sub] at this
        refine AtMostNodes_mono this (le_of_eq ?_)
        congr 1
        ring
      · refine ⟨hx.1, fun x hxx c v hv => ?_⟩
        obtain ⟨I, hI, rfl⟩ := List.mem_map.1 hxx
        rw [subInstance] at hv
        split at hv
        · cases hv
          unfold VarSet.get
          cases hc : I c with
          | none => exact hx.1
          | some w => exact hx.2 I hI c w hc
        · cases hv
      · intro e
        have := length_sub D s
        rw [e] at this
        simp at this
        omega)
    have h3 := sum_parts ((univariateNodes g + 1) * D.length) (by positivity) K hne
    rw [hpm.length_eq, order_length ho1 hk] at h3
    have h4 : (univariateNodes g + 1) * D.length * keys.length = (univariateNodes g + 1) * keys.length * D.length := by ring
    refine parent_nodes (l := l) (by omega) (fun c hc => l2 c ?_)
    have : c ∈ ds := by simpa [Net.ch, hu] using hc
    exact hp.mem_iff.1 this
  | @factorized Sc D u keys0 K ho hn hK hK1 hc hf =>
    intro hcl hok hs hx hD keys hk hkne
    obtain ⟨ks, cs, ho2, hlen, hu, hcs⟩ := hf
    have hpos := List.length_pos_iff.2 hD
    obtain ⟨l, l1, l2⟩ := union_nodes (ch := N.ch) (fun _ : Int => univariateNodes g) ks cs hlen (fun i x c h1 h2 => by
      obtain ⟨v, _, hv⟩ := hcs i x c h1 h2
      exact univariate_nodes hv)
    have h1 := order_length ho2 hk
    have h2 := order_length ho hk
    have h3 := List.length_pos_iff.2 hkne
    simp only [List.map_const', List.sum_replicate, smul_eq_mul] at l1
    rw [h1] at l1
    have h5 : (univariateNodes g + 1) * keys.length * 1 ≤ (univariateNodes g + 1) * keys.length * D.length := Nat.mul_le_mul_left _ hpos
    have h6 : (univariateNodes g + 1) * keys.length = keys.length * univariateNodes g + keys.length := by ring
    clear hc hcl
    refine parent_nodes (l := l) (by omega) (fun c hcc => l2 c ?_)
    simpa [Net.ch, hu] using hcc
  | @sum Sc D u keys0 K C orders cs ps ho hn hK hK1 hC hC1 hlen hor hl hp hu ih =>
    intro hcl hok hs hx hD keys hk hkne
    have hperm := clustered_perm_exact hC hs hx
    have hne : [] ∉ C := by
      rcases hcl with hk0 | hcl
      · exact dbscan_nonempty hk0 hs hx hC
      · intro hnil
        obtain ⟨i, hi⟩ := List.getElem?_of_mem hnil
        have hlt : i < C.length := (List.getElem?_eq_some_iff.1 hi).1
        have hci : cs[i]? = some (cs[i]'(by omega)) := List.getElem?_eq_getElem _
        have hmem : (cs[i]'(by omega), div (ofInt (([] : List VarSet).length : Int)) (ofInt (D.length : Int))) ∈ (cs.zip (C.map fun d => (div (ofInt (d.length : Int)) (ofInt (D.length : Int)) : F))) := by
          apply List.mem_of_getElem? (i := i)
          rw [List.getElem?_zip_eq_some]
          refine ⟨hci, ?_⟩
          rw [List.getElem?_map, hi]
          rfl
        have hw := List.mem_map_of_mem (f := Prod.snd) (hp.mem_iff.2 hmem)
        exact hcl u _ _ Relation.ReflTransGen.refl hu (D.length : Int) (by have := List.length_pos_iff.2 hD; omega) (by simpa using hw)
    have h3 := List.length_pos_iff.2 hkne
    have hpos := List.length_pos_iff.2 hD
    obtain ⟨l, l1, l2⟩ := union_nodes (ch := N.ch) (fun d : List VarSet => (univariateNodes g + 1) * keys.length * d.length - 1) C cs hlen (fun i d c h1 h2 => by
      have hd : d ∈ C := List.mem_of_getElem? h1
      have hr := reflectScope_eq (hor i)
      have hcu : c ∈ N.ch u := by
        have hmem : (c, (div (ofInt (d.length : Int)) (ofInt (D.length : Int)) : F)) ∈ (cs.zip (C.map fun d => (div (ofInt (d.length : Int)) (ofInt (D.length : Int)) : F))) := by
          apply List.mem_of_getElem? (i := i)
          rw [List.getElem?_zip_eq_some]
          exact ⟨h2, by rw [List.getElem?_map, h1]; rfl⟩
        have := List.mem_map_of_mem (f := Prod.fst) (hp.mem_iff.2 hmem)
        simpa [Net.ch, hu] using this
      exact ih i d c h1 h2 (NoEmptyCluster_child hcl hcu) (by rw [hr]; exact hok) (sameVars_cluster hperm hs hd) ⟨hx.1, fun x hxx => hx.2 x (hperm.mem_iff.1 (List.mem_flatten.2 ⟨d, hd, hxx⟩))⟩
        (fun e => hne (e ▸ hd)) keys (by rw [hr]; exact hk) hkne)
    have h4 := sum_parts ((univariateNodes g + 1) * keys.length) (by positivity) C hne
    rw [hperm.length_eq] at h4
    have h5 : 1 < C.length := by
      rcases Nat.lt_or_ge 1 C.length with h | h
      · exact h
      · exfalso
        have : C = [] := List.length_eq_zero_iff.1 (by omega)
        subst this
        have := hperm.length_eq
        simp at this
        omega
    refine parent_nodes (l := l) (by omega) (fun c hc => l2 c ?_)
    have hc : c ∈ ps.map Prod.fst := by simpa [Net.ch, hu] using hc
    obtain ⟨p, hpp, rfl⟩ := List.mem_map.1 hc
    exact (List.of_mem_zip (hp.mem_iff.1 hpp)).1

/-- C136 for DBSCAN (`kclusters <= 0`): the network that `Learn` returns for `n` variables and `m` instances has at most `2 n m - 1` nodes, the one that
`LearnGauss` returns at most `(g + 2) n m - 1`. -/
theorem C136_dbscan {N : Net ι F} {g k : Int} (hk : k ≤ 0) {eps : F} {mp : Int} {cats : Int → Int} {Sc : VarScope} {D : List VarSet} {u : ι} (h : Learned N g k eps mp Sc D u)
    (hok : ScopeOk cats Sc) (hs : SameVars D) (hx : ExactData F D) (hD : D ≠ []) {keys : List Int} (ho : Sc.Order keys) (hne : keys ≠ []) :
    AtMostNodes N.ch u ((if g ≤ 0 then 2 else g.toNat + 2) * keys.length * D.length - 1) := by
  have := learned_nodes (cats := cats) h (Or.inl hk) hok hs hx hD keys ho hne
  unfold univariateNodes at this
  split at this <;> rename_i hg
  · rw [if_pos hg]; exact this
  · rw [if_neg hg]; exact this

/-- C136 for both ways of clustering, if the network shows no empty cluster: no sum has a weight `0/m`.
With k-means it depends on the library whether there are such weights. If a cluster may get no instance, another may get all of them, and there is no bound (`C135_endless`). -/
theorem C136_kmeans {N : Net ι F} {g k : Int} {eps : F} {mp : Int} {cats : Int → Int} {Sc : VarScope} {D : List VarSet} {u : ι} (h : Learned N g k eps mp Sc D u)
    (hcl : NoEmptyCluster N u)
    (hok : ScopeOk cats Sc) (hs : SameVars D) (hx : ExactData F D) (hD : D ≠ []) {keys : List Int} (ho : Sc.Order keys) (hne : keys ≠ []) :
    AtMostNodes N.ch u ((if g ≤ 0 then 2 else g.toNat + 2) * keys.length * D.length - 1) := by
  have := learned_nodes (cats := cats) h (Or.inr hcl) hok hs hx hD keys ho hne
  unfold univariateNodes at this
  split at this <;> rename_i hg
  · rw [if_pos hg]; exact this
  · rw [if_neg hg]; exact this

section
open GensExample

/-- The bound is attained: the network learned from two variables and two instances has `2 * 2 * 2 - 1 = 7` nodes. It also meets the hypotheses of
`C136_kmeans`. -/
theorem C136_attained (eps : XR) (mp : Int) : ∃ N : Net (Fin 7) XR, Learned N 0 2 eps mp scope [d0, d1] 0 ∧ AtLeastNodes N.ch 0 (2 * [(0 : Int), 1].length * [d0, d1].length - 1) ∧
    NoEmptyCluster N 0 ∧ ScopeOk (fun _ => 2) scope ∧ SameVars [d0, d1] ∧ ExactData XR [d0, d1] ∧ scope.Order [0, 1] := by
  have hrand : ∀ n, 0 < n → (fun _ => 0 : Nat → Nat) n < n := fun n hn => hn
  obtain ⟨a, _, ha, _⟩ := C51_counting (fun _ => 0) hrand 0 [1, 0] (by decide) (by simp)
  obtain ⟨b, _, hb, _⟩ := C51_counting (fun _ => 0) hrand 1 [0, 1] (by decide) (by simp)
  obtain ⟨c, _, hc, _⟩ := C51_counting (fun _ => 0) hrand 0 [0, 1] (by decide) (by simp)
  obtain ⟨d, _, hd, _⟩ := C51_counting (fun _ => 0) hrand 1 [1, 0] (by decide) (by simp)
  let w : XR := div (ofInt 1) (ofInt 2)
  let N : Net (Fin 7) XR := ⟨![.sum [1, 2] [w, w], .product [3, 4], .product [5, 6], .leaf a, .leaf b, .leaf c, .leaf d]⟩
  have leafOf : ∀ (v : Variable) (D : List VarSet) (counts : List Int) (l : Leaf XR) (u : Fin 7), countValues v D = some counts →
      newCountingMultinomial (fun _ => 0) v.varid counts = some l → N.kind u = .leaf l → IsUnivariate N 0 v D u := by
    intro v D counts l u h1 h2 h3
    unfold IsUnivariate
    rw [if_pos le_rfl]
    exact ⟨fun _ => 0, counts, l, hrand, h1, h2, h3⟩
  have factor : ∀ (D : List VarSet) (u x y : Fin 7), D.length = 1 → N.kind u = .product [x, y] → IsUnivariate N 0 ⟨0, 2⟩ D x → IsUnivariate N 0 ⟨1, 2⟩ D y →
      Learned N 0 2 eps mp scope D u := by
    intro D u x y hD hu h0 h1
    refine .factorized [0, 1] [[1, 0]] scope_order (by simp) (sets D) (by simp) (Or.inl ⟨by omega, by omega⟩) ⟨[0, 1], [x, y], scope_order, rfl, hu, ?_⟩
    intro i k c hk hc
    match i, hk, hc with
    | 0, hk, hc =>
      simp at hk hc; subst hk; subst hc
      exact ⟨⟨0, 2⟩, rfl, h0⟩
    | 1, hk, hc =>
      simp at hk hc; subst hk; subst hc
      exact ⟨⟨1, 2⟩, rfl, h1⟩
    | i + 2, hk, hc => simp at hk
  have l1 : Learned N 0 2 eps mp scope [d0] 1 := factor [d0] 1 3 4 rfl rfl (leafOf _ _ [1, 0] a 3 (by decide) ha rfl) (leafOf _ _ [0, 1] b 4 (by decide) hb rfl)
  have l2 : Learned N 0 2 eps mp scope [d1] 2 := factor [d1] 2 5 6 rfl rfl (leafOf _ _ [0, 1] c 5 (by decide) hc rfl) (leafOf _ _ [1, 0] d 6 (by decide) hd rfl)
  refine ⟨N, ?_, ?_, ?_, ?_, ?_, ⟨by simp [XR.toInt], by intro x _ c v _; simp [XR.toInt]⟩, scope_order⟩
  · refine .sum [0, 1] [[1, 0]] [[d0], [d1]] (fun _ => [0, 1]) [1, 2] [(1, w), (2, w)] scope_order (by simp) (sets _) (by simp) (clusters eps mp) (by simp) rfl
      (fun _ => scope_order) ?_ (List.Perm.refl _) rfl
    intro i d c hd hc
    rw [reflectScope_eq scope_order]
    match i, hd, hc with
    | 0, hd, hc =>
      simp at hd hc; subst hd; subst hc
      exact l1
    | 1, hd, hc =>
      simp at hd hc; subst hd; subst hc
      exact l2
    | i + 2, hd, hc => simp at hd
  · have step : ∀ {x y : Fin 7}, y ∈ N.ch x → Reach N.ch 0 x → Reach N.ch 0 y := fun h1 h2 => Relation.ReflTransGen.tail h2 h1
    have r0 : Reach N.ch 0 0 := Relation.ReflTransGen.refl
    have r1 : Reach N.ch 0 1 := step (by simp [Net.ch, N]) r0
    have r2 : Reach N.ch 0 2 := step (by simp [Net.ch, N]) r0
    have r3 : Reach N.ch 0 3 := step (x := 1) (by simp [Net.ch, N]) r1
    have r4 : Reach N.ch 0 4 := step (x := 1) (by simp [Net.ch, N]) r1
    have r5 : Reach N.ch 0 5 := step (x := 2) (by simp [Net.ch, N]) r2
    have r6 : Reach N.ch 0 6 := step (x := 2) (by simp [Net.ch, N]) r2
    refine ⟨[0, 1, 2, 3, 4, 5, 6], by simp, by simp, ?_⟩
    intro v hv
    simp only [List.mem_cons, List.not_mem_nil, or_false] at hv
    rcases hv with rfl | rfl | rfl | rfl | rfl | rfl | rfl <;> assumption
  · intro n cs ws _ hn m hm
    fin_cases n <;> simp [N] at hn
    obtain ⟨_, rfl⟩ := hn
    have hm' : (m : ℝ) ≠ 0 := by exact_mod_cast hm.ne'
    simp [w, div, ofInt, XR.div, hm']
  · intro k v hv
    unfold scope at hv
    split at hv
    · rename_i h; cases hv; subst h; exact ⟨rfl, rfl, show (0 : Int) < 2 by omega⟩
    · split at hv
      · rename_i h; cases hv; subst h; exact ⟨rfl, rfl, show (0 : Int) < 2 by omega⟩
      · cases hv
  · intro x hx y hy k
    simp only [List.mem_cons, List.not_mem_nil, or_false] at hx hy
    rcases hx with rfl | rfl <;> rcases hy with rfl | rfl <;> by_cases h0 : k = 0 <;> by_cases h1 : k = 1 <;> simp [d0, d1, VarSet.set, VarSet.empty, h0, h1]

/-- A network learned with the parameters of DBSCAN: a product of two leaves. -/
example (eps : XR) (mp : Int) : ∃ N : Net (Fin 3) XR, Learned N 0 0 eps mp scope [d0, d1] 0 ∧ AtMostNodes N.ch 0 7 := by
  have hrand : ∀ n, 0 < n → (fun _ => 0 : Nat → Nat) n < n := fun n hn => hn
  obtain ⟨a, _, ha, _⟩ := C51_counting (fun _ => 0) hrand 0 [1, 1] (by decide) (by simp)
  obtain ⟨b, _, hb, _⟩ := C51_counting (fun _ => 0) hrand 1 [1, 1] (by decide) (by simp)
  let N : Net (Fin 3) XR := ⟨![.product [1, 2], .leaf a, .leaf b]⟩
  have h : Learned N 0 0 eps mp scope [d0, d1] 0 := by
    refine .product [0, 1] [[0], [1]] (fun i => fun k => if k = i then some ⟨k, 2⟩ else none) [1, 2] [1, 2] scope_order (by simp) ?_ (by simp) rfl ?_ ?_ rfl (List.Perm.refl _)
    · exact ⟨[0, 1], [(⟨0, 2⟩, [d0, d1].map fun I => I.get 0), (⟨1, 2⟩, [d0, d1].map fun I => I.get 1)], fun _ _ => true, scope_order, rfl,
        show newUFIndepGraph [0, 1] (fun _ _ => true) = some [[0], [1]] by decide⟩
    · intro i s hs
      match i, hs with
      | 0, hs => simp at hs; subst hs; simp [subScope, scope]; funext k; by_cases h : k = 0 <;> simp [h]
      | 1, hs => simp at hs; subst hs; simp [subScope, scope]; funext k; by_cases h : k = 1 <;> simp [h]
      | i + 2, hs => simp at hs
    · intro i s c hs hc
      match i, hs, hc with
      | 0, hs, hc =>
        simp at hs hc; subst hs; subst hc
        refine .leaf 0 ⟨0, 2⟩ ⟨by simp, fun k => by by_cases h : k = 0 <;> simp [h]⟩ (by simp) ?_
        unfold IsUnivariate
        rw [if_pos le_rfl]
        exact ⟨fun _ => 0, [1, 1], a, hrand, by decide, ha, rfl⟩
      | 1, hs, hc =>
        simp at hs hc; subst hs; subst hc
        refine .leaf 1 ⟨1, 2⟩ ⟨by simp, fun k => by by_cases h : k = 1 <;> simp [h]⟩ (by simp) ?_
        unfold IsUnivariate
        rw [if_pos le_rfl]
        exact ⟨fun _ => 0, [1, 1], b, hrand, by decide, hb, rfl⟩
      | i + 2, hs, hc => simp at hs
  refine ⟨N, h, ?_⟩
  obtain ⟨_, _, _, _, hok, hs, hx, ho⟩ := C136_attained eps mp
  exact C136_dbscan le_rfl h hok hs hx (by simp) ho (by simp)

end

end Gospn
