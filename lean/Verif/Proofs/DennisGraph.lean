/-
`buildRegionGraph` of learn/dennis, and the order in which `postorder` lists the regions.
-/
import Verif.Proofs.Dennis
import Verif.Props.Matrix
import Verif.Props.Dbscan

set_option linter.unusedSectionVars false
set_option linter.unusedSimpArgs false

namespace Gospn
open Spec GoFloat

/-! ### The clusters of instances -/

theorem complete_length {ks : List Int} {x : VarSet} {n : Nat} (h : Enumerates x ks) (hc : ∀ k, (x k).isSome ↔ 0 ≤ k ∧ k < (n : Int)) : ks.length = n := by
  have : ks.Perm ((List.range n).map fun (k : Nat) => (k : Int)) := by
    rw [List.perm_ext_iff_of_nodup h.1 (List.nodup_range.map fun a b h => by simpa using h)]
    intro k
    rw [h.2 k, hc k]
    simp only [List.mem_map, List.mem_range]
    constructor
    · rintro ⟨h1, h2⟩
      exact ⟨k.toNat, by omega, by omega⟩
    · rintro ⟨a, h1, rfl⟩
      omega
  simpa using this.length_eq

theorem mapM_congr_mem {α β : Type} {f g : α → Option β} : ∀ {l : List α}, (∀ a ∈ l, f a = g a) → l.mapM f = l.mapM g := by
  intro l
  induction l with
  | nil => intro _; rfl
  | cons a l ih =>
    intro h
    rw [List.mapM_cons, List.mapM_cons, h a List.mem_cons_self, ih fun b hb => h b (List.mem_cons_of_mem _ hb)]

theorem dataToCluster_spec {ord : MapOrder} {D : List VarSet} {n : Nat} (hne : D ≠ []) (ho : OrdersOf ord D) (hc : CompleteVars n D) :
    ∃ rows, dataToCluster ord D = some rows ∧ rows ≠ [] ∧ ∀ r ∈ rows, r.length = n := by
  refine ⟨D.map fun I => (List.range n).map fun (k : Nat) => I.get (k : Int), ?_, by simpa using hne, ?_⟩
  · have h := completeDataToMatrix_spec (id : Int → Int) 0 n hne ho hc
    rw [show (D.map fun I => (List.range n).map fun (k : Nat) => I.get (k : Int)) = D.map fun I => (List.range n).map fun (k : Nat) => id (I.get (k : Int)) from rfl, ← h]
    obtain ⟨I0, D', rfl⟩ := List.exists_cons_of_ne_nil hne
    unfold dataToCluster completeDataToMatrix
    simp only [List.getElem?_cons_zero, Option.bind_some, id]
    apply mapM_congr_mem
    intro x hx
    have hx' : x.1 ∈ I0 :: D' := List.fst_mem_of_mem_zipIdx hx
    rw [complete_length (ho 0 I0 (by simp)) (hc I0 (by simp)), complete_length (ho x.2 x.1 hx') (hc x.1 hx')]
  · intro r hr
    obtain ⟨I, _, rfl⟩ := List.mem_map.1 hr
    simp

theorem foldl_max_const {n : Nat} : ∀ (rows : List (List Int)) (a : Nat), a ≤ n → (∀ r ∈ rows, r.length = n) → rows ≠ [] → rows.foldl (fun n r => max n r.length) a = n := by
  intro rows
  induction rows with
  | nil => intro a _ _ h; exact absurd rfl h
  | cons r rows ih =>
    intro a ha hr _
    rw [List.foldl_cons, hr r List.mem_cons_self, Nat.max_eq_right ha]
    cases rows with
    | nil => rfl
    | cons r' rows => exact ih n (le_refl _) (fun x hx => hr x (List.mem_cons_of_mem _ hx)) (by simp)

/-- The columns of a non-empty cluster are keyed by the variables. -/
theorem transposeRows_keys {rows : List (List Int)} {n : Nat} (hne : rows ≠ []) (hr : ∀ r ∈ rows, r.length = n) :
    (transposeRows rows).map (·.1) = (List.range n).map fun (i : Nat) => (i : Int) := by
  unfold transposeRows
  rw [foldl_max_const rows 0 (Nat.zero_le _) hr hne, List.map_map]
  rfl

theorem mem_firstVars {n : Nat} {v : Int} : v ∈ firstVars n ↔ 0 ≤ v ∧ v < n := by
  unfold firstVars
  simp only [Finset.mem_image, Finset.mem_range]
  constructor
  · rintro ⟨a, h1, rfl⟩
    omega
  · rintro ⟨h1, h2⟩
    exact ⟨v.toNat, by omega, by omega⟩

theorem card_firstVars (n : Nat) : (firstVars n).card = n := by
  unfold firstVars
  rw [Finset.card_image_of_injective _ (fun a b h => by simpa using h), Finset.card_range]

/-- The clusters as `buildRegionGraph` passes them to `expandRegionGraph`. -/
theorem mapM_pred {α β : Type} {f : α → Option β} {P : β → Prop} : ∀ {l : List α}, (∀ a ∈ l, ∃ b, f a = some b ∧ P b) → ∃ r, l.mapM f = some r ∧ r.length = l.length ∧ ∀ b ∈ r, P b := by
  intro l
  induction l with
  | nil => intro _; exact ⟨[], rfl, rfl, by simp⟩
  | cons a l ih =>
    intro h
    obtain ⟨b, hb, hP⟩ := h a List.mem_cons_self
    obtain ⟨r, hr, hl, hrP⟩ := ih fun x hx => h x (List.mem_cons_of_mem _ hx)
    refine ⟨b :: r, ?_, by simp [hl], ?_⟩
    · rw [List.mapM_cons, hb, hr]
      rfl
    · intro y hy
      rcases List.mem_cons.1 hy with rfl | hy
      · exact hP
      · exact hrP y hy

variable {F : Type} [GoFloat F]

/-- The region graph that `buildRegionGraph` makes: every partition splits its region into two non-empty disjoint parts, and every region of more than one variable has a partition. -/
theorem buildRegionGraph_ok (E : DEnv F) (D : List VarSet) (n : Nat) (k : Int) (d : F) (hE : GoodEnv E D k) (hne : D ≠ []) (hn : 1 < n) (hc : CompleteVars n D)
    (hr : 1 < k → ∀ x ∈ D, ∀ c v, x c = some v → toInt (ofInt v : F) = v) :
    ∃ G, buildRegionGraph E D (firstVars n) k d = some G ∧ RInv (firstVars n) G ∧ Expanded G (fun _ => False) := by
  have hdtc : ∀ (i : Nat) (C : List VarSet), C ≠ [] → (∀ x ∈ C, x ∈ D) → ∃ b, (dataToCluster (E.ords i) C).map transposeRows = some b ∧ b.map (·.1) = (List.range n).map fun (i : Nat) => (i : Int) := by
    intro i C hC hsub
    obtain ⟨rows, h1, h2, h3⟩ := dataToCluster_spec (ord := E.ords i) (D := C) hC (fun t x hx => hE.ords i t x (hsub x hx)) (fun x hx => hc x (hsub x hx))
    exact ⟨transposeRows rows, by rw [h1, Option.map_some], transposeRows_keys h2 h3⟩
  have hCs : ∃ Cs : List (List (Int × List Int)), (if k > 1 then
      (kMeansDataI E.assign E.ord k D).bind fun C => C.zipIdx.mapM fun x => (dataToCluster (E.ords x.2) x.1).map transposeRows
    else if k = 1 then (dataToCluster (E.ords 0) D).map fun C => [transposeRows C]
    else (completeDataToMatrix id 0 E.ord D).bind fun M => (dbscan M (ofInt 4 : F) 4).map fun C =>
      C.map fun c => transposeRows ((List.range M.length).filterMap fun (i : Nat) => c (i : Int))) = some Cs ∧ Cs ≠ [] ∧
      ∀ C ∈ Cs, C.map (·.1) = (List.range n).map fun (i : Nat) => (i : Int) := by
    by_cases h1 : k > 1
    · rw [if_pos h1]
      obtain ⟨K, rfl⟩ : ∃ K : Nat, k = K := ⟨k.toNat, by omega⟩
      have hsame : SameVars D := by
        intro x hx y hy c
        rw [Bool.eq_iff_iff, hc x hx, hc y hy]
      -- the labels that the library gives
      obtain ⟨cols, M, hM, _, hMl, _⟩ := C40_matrix (ofInt : Int → F) (ofInt 0) hne hE.ord hsame
      obtain ⟨G, hG, hGl, hGr, hGu⟩ := hE.assign h1 M hMl
      obtain ⟨M', Sc, C, g1, g2, g3, g4, g5⟩ := C39_groups (F := F) (k := K) hne hE.ord hsame (hr h1) hGl (by simpa using hGr)
      rw [hM] at g1
      simp only [Option.some.injEq, Prod.mk.injEq] at g1
      obtain ⟨rfl, rfl⟩ := g1
      have hkm : kMeansDataI E.assign E.ord K D = some C := by
        unfold kMeansDataI
        rw [hM]
        simp only [Option.bind_some, hG]
        exact g2
      rw [hkm, Option.bind_some]
      have hmem : ∀ x ∈ C.zipIdx, x.1 ≠ [] ∧ ∀ y ∈ x.1, y ∈ D := by
        intro x hx
        have hx' := List.mem_zipIdx_iff_getElem?.1 hx
        have hlt : x.2 < K := by
          by_contra h
          rw [List.getElem?_eq_none (by omega)] at hx'
          cases hx'
        rw [g4 x.2 hlt, Option.some.injEq] at hx'
        rw [← hx']
        constructor
        · obtain ⟨i, hi, hia⟩ := List.mem_iff_getElem.1 (hGu x.2 (by simpa using hlt))
          have hiD : i < D.length := by omega
          have : (D[i], G[i]) ∈ (D.zip G).filter fun y => y.2 = (x.2 : Int) := by
            rw [List.mem_filter]
            refine ⟨?_, by simpa using hia⟩
            rw [List.mem_iff_getElem]
            exact ⟨i, by rw [List.length_zip]; omega, by rw [List.getElem_zip]⟩
          intro h0
          have := List.mem_map_of_mem (f := Prod.fst) this
          rw [h0] at this
          cases this
        · intro y hy
          obtain ⟨z, hz, rfl⟩ := List.mem_map.1 hy
          exact (List.of_mem_zip (List.mem_filter.1 hz).1).1
      obtain ⟨r, e1, e2, e3⟩ := mapM_pred (l := C.zipIdx) (f := fun x => (dataToCluster (E.ords x.2) x.1).map transposeRows)
        (P := fun b => b.map (·.1) = (List.range n).map fun (i : Nat) => (i : Int)) (fun x hx => hdtc x.2 x.1 (hmem x hx).1 (hmem x hx).2)
      refine ⟨r, e1, ?_, e3⟩
      intro h0
      rw [h0, List.length_zipIdx, g3, List.length_nil] at e2
      omega
    · rw [if_neg h1]
      by_cases h2 : k = 1
      · rw [if_pos h2]
        obtain ⟨rows, e1, e2, e3⟩ := dataToCluster_spec (ord := E.ords 0) (D := D) hne (hE.ords 0) hc
        refine ⟨[transposeRows rows], by rw [e1, Option.map_some], by simp, ?_⟩
        intro C hC
        rw [List.mem_singleton] at hC
        rw [hC]
        exact transposeRows_keys e2 e3
      · rw [if_neg h2, completeDataToMatrix_spec id 0 n hne hE.ord hc, Option.bind_some]
        set M : List (List Int) := D.map fun I => (List.range n).map fun (k : Nat) => id (I.get (k : Int)) with hMdef
        have hMne : M ≠ [] := by simpa [hMdef] using hne
        have hMlen : ∀ r ∈ M, r.length = n := by
          intro r hr
          obtain ⟨I, _, rfl⟩ := List.mem_map.1 hr
          simp
        obtain ⟨K, R, hK, ⟨hK1, hK2, _⟩, _⟩ := C38_dbscan_partial M hMne (fun x hx y hy => by rw [hMlen x hx, hMlen y hy]) (ofInt 4 : F) 4
        rw [hK, Option.map_some]
        refine ⟨_, rfl, ?_, ?_⟩
        · intro h0
          simp only [List.map_eq_nil_iff] at h0
          rw [h0, List.flatten_nil] at hK1
          have := hK1.length_eq
          simp only [List.length_nil, List.length_map, List.length_range] at this
          exact hMne (List.length_eq_zero_iff.1 this.symm)
        · intro C hC
          simp only [List.mem_map] at hC
          obtain ⟨c, ⟨s, hs, rfl⟩, rfl⟩ := hC
          apply transposeRows_keys
          · obtain ⟨l, hl⟩ := List.exists_mem_of_ne_nil s (fun h => hK2 (h ▸ hs))
            have hl' : l ∈ K.flatten := List.mem_flatten.2 ⟨s, hs, hl⟩
            obtain ⟨i, hi, rfl⟩ := List.mem_map.1 (hK1.mem_iff.1 hl')
            have hi := List.mem_range.1 hi
            refine List.ne_nil_of_mem (a := M[i]) (List.mem_filterMap.2 ⟨i, List.mem_range.2 hi, ?_⟩)
            simp only [hl, if_true, Int.toNat_natCast]
            exact List.getElem?_eq_getElem hi
          · intro r hr
            obtain ⟨i, hi, h⟩ := List.mem_filterMap.1 hr
            dsimp only at h
            split at h
            · exact hMlen r (List.mem_of_getElem? h)
            · cases h
  obtain ⟨Cs, hCs1, hCs2, hCs3⟩ := hCs
  have hfn : (firstVars n).card = n := card_firstVars n
  have hnonempty : (firstVars n).Nonempty := Finset.card_pos.1 (by omega)
  obtain ⟨x, hx1, hx2, hx3⟩ := expand_all E d (firstVars n) (by omega) Cs (newRGraph (firstVars n), 0) (fun _ => False) (by
      intro C hC sn hsn hcard t
      refine partitionScope_ok E hE.km hE.order ?_ ?_ hsn hcard t
      · rw [hCs3 C hC]
        exact List.nodup_range.map fun a b h => by simpa using h
      · intro v hv
        rw [hCs3 C hC]
        obtain ⟨h1, h2⟩ := mem_firstVars.1 hv
        exact List.mem_map.2 ⟨v.toNat, List.mem_range.2 (by omega), by omega⟩)
    (newRGraph_inv hnonempty) (by simp [newRGraph]) (by
      intro s hs _ _
      simp only [newRGraph, List.mem_singleton] at hs
      exact Or.inr hs)
  refine ⟨x.1, ?_, hx2, hx3 hCs2⟩
  unfold buildRegionGraph
  rw [hCs1, Option.bind_some, hx1, Option.map_some]

/-! ### The order of the regions -/

/-- A depth that suffices for a region or partition. -/
def RNode.rank : RNode → Nat
  | .region s => 2 * s.card
  | .part s _ _ => 2 * s.card - 1

section Rank
variable {ι : Type} [DecidableEq ι]

theorem postOrderRec_spec (ch : ι → List ι) (rank : ι → Nat) (P : ι → Prop) (hP : ∀ n, P n → ∀ c ∈ ch n, P c ∧ rank c < rank n) : ∀ (fuel : Nat) (s : ι) (V : Finset ι),
    P s → rank s < fuel → s ∉ V → ∃ out, VisitOK ch V [s] out ∧ ∀ C, postOrderRec ch fuel s (insert s V, C) = (V ∪ out.toFinset, C.giveAll out) := by
  intro fuel
  induction fuel with
  | zero => intro s V _ h; omega
  | succ fuel ih =>
    intro s V hs hf hsV
    have key : ∀ (cs : List ι) (V : Finset ι), (∀ c ∈ cs, P c ∧ rank c < fuel) → ∃ out, VisitOK ch V cs out ∧
        ∀ C, cs.foldl (fun st c => if c ∈ st.1 then st else postOrderRec ch fuel c (insert c st.1, st.2)) (V, C) = (V ∪ out.toFinset, C.giveAll out) := by
      intro cs
      induction cs with
      | nil => intro V _; exact ⟨[], VisitOK.nil ch V, by simp⟩
      | cons c cs ihc =>
        intro V hV
        obtain ⟨hc1, hc2⟩ := hV c List.mem_cons_self
        by_cases hcV : c ∈ V
        · obtain ⟨o2, h2, e2⟩ := ihc V fun x hx => hV x (List.mem_cons_of_mem _ hx)
          have h1 := VisitOK.visited ch hcV
          refine ⟨[] ++ o2, h1.cons (by simpa using h2), fun C => ?_⟩
          rw [List.foldl_cons, if_pos hcV, e2, List.nil_append]
        · obtain ⟨o1, h1, e1⟩ := ih c V hc1 hc2 hcV
          obtain ⟨o2, h2, e2⟩ := ihc (V ∪ o1.toFinset) fun x hx => hV x (List.mem_cons_of_mem _ hx)
          refine ⟨o1 ++ o2, h1.cons h2, fun C => ?_⟩
          rw [List.foldl_cons, if_neg hcV, e1, e2, Coll.giveAll_append, List.toFinset_append, Finset.union_assoc]
    obtain ⟨o, ho, e⟩ := key (ch s) (insert s V) (fun c hc => ⟨(hP s hs c hc).1, by have := (hP s hs c hc).2; omega⟩)
    refine ⟨o ++ [s], ho.node hsV, fun C => ?_⟩
    unfold postOrderRec
    rw [e, Coll.giveAll_concat]
    have : insert s V ∪ o.toFinset = V ∪ (o ++ [s]).toFinset := by ext x; simp
    simp only [this]

end Rank

/-- The region of a node of the region graph, if it is one. -/
def RNode.toRegion : RNode → Option Scope
  | .region s => some s
  | .part _ _ _ => none

/-- `postorder` lists the regions below the root, each once, and every region after the parts it is split into. -/
theorem postorder_spec {root : Scope} {G : RGraph} (h : RInv root G) : ∃ rs, G.postorder root = rs ∧ rs.Nodup ∧ root ∈ rs ∧ (∀ s ∈ rs, s ∈ G.R) ∧
    (∀ s ∈ rs, ∀ p ∈ G.ch s, p.1 ∈ rs ∧ p.2 ∈ rs) ∧ ∀ b s a, rs = b ++ s :: a → ∀ p ∈ G.ch s, p.1 ∈ b ∧ p.2 ∈ b := by
  -- nodes of the graph
  let P : RNode → Prop := fun n => match n with
    | .region s => s ∈ G.R
    | .part s a b => s ∈ G.R ∧ (a, b) ∈ G.ch s
  have hP : ∀ n, P n → ∀ c ∈ G.children n, P c ∧ c.rank < n.rank := by
    intro n hn c hc
    cases n with
    | region s =>
      simp only [RGraph.children, List.mem_map] at hc
      obtain ⟨p, hp, rfl⟩ := hc
      refine ⟨⟨hn, hp⟩, ?_⟩
      have := Finset.card_pos.2 (h.sub s hn).2
      show 2 * s.card - 1 < 2 * s.card
      omega
    | part s a b =>
      obtain ⟨_, hab⟩ := hn
      obtain ⟨_, h2, h3, h4⟩ := h.split s _ hab
      have hlt := h4.card_lt
      simp only [RGraph.children, List.mem_cons, List.not_mem_nil, or_false] at hc
      dsimp only at hlt
      rcases hc with rfl | rfl
      · refine ⟨h2, ?_⟩
        show 2 * a.card < 2 * s.card - 1
        omega
      · refine ⟨h3, ?_⟩
        show 2 * b.card < 2 * s.card - 1
        omega
  have hroot : root ∈ G.R := by
    obtain ⟨l, hl⟩ := h.head
    rw [hl]
    exact List.mem_cons_self
  obtain ⟨out, ho, e⟩ := postOrderRec_spec G.children RNode.rank P hP (2 * root.card + 1) (.region root) ∅ hroot (Nat.lt_succ_self _) (Finset.notMem_empty _)
  have eq : G.postorder root = out.filterMap RNode.toRegion := by
    unfold RGraph.postorder
    rw [show ({RNode.region root} : Finset RNode) = insert (RNode.region root) ∅ from rfl, e, Coll.giveAll_queue, List.nil_append]
    apply List.filterMap_congr
    intro n _
    cases n <;> rfl
  have hPout : ∀ n ∈ out, P n := by
    intro n hn
    obtain ⟨r, hr, hreach⟩ := ho.reach n hn
    rw [List.mem_singleton] at hr
    subst hr
    clear hn
    induction hreach with
    | refl => exact hroot
    | tail _ hc ih => exact (hP _ ih _ hc).1
  have mem : ∀ s, s ∈ out.filterMap RNode.toRegion ↔ RNode.region s ∈ out := by
    intro s
    rw [List.mem_filterMap]
    constructor
    · rintro ⟨n, hn, hs⟩
      cases n with
      | region s' =>
        have : s' = s := Option.some.inj hs
        rw [← this]
        exact hn
      | part s a b => cases hs
    · exact fun hn => ⟨_, hn, rfl⟩
  have hclosed : ∀ n ∈ out, ∀ c ∈ G.children n, c ∈ out := by
    intro n hn c hc
    rcases ho.closed n hn c hc with h' | h'
    · exact absurd h' (Finset.notMem_empty _)
    · exact h'
  refine ⟨_, eq, ?_, ?_, ?_, ?_, ?_⟩
  · refine List.Nodup.filterMap ?_ ho.nodup
    intro a a' b hb hb'
    cases a with
    | region s =>
      cases a' with
      | region s' =>
        have h1 : s = b := by simpa [RNode.toRegion] using hb
        have h2 : s' = b := by simpa [RNode.toRegion] using hb'
        rw [h1, h2]
      | part _ _ _ => simp [RNode.toRegion] at hb'
    | part _ _ _ => simp [RNode.toRegion] at hb
  · rw [mem]
    rcases ho.roots (.region root) (by simp) with h' | h'
    · exact absurd h' (Finset.notMem_empty _)
    · exact h'
  · intro s hs
    exact hPout _ ((mem s).1 hs)
  · intro s hs p hp
    have h1 := hclosed _ ((mem s).1 hs) (.part s p.1 p.2) (List.mem_map.2 ⟨p, hp, rfl⟩)
    rw [mem, mem]
    exact ⟨hclosed _ h1 _ (by simp [RGraph.children]), hclosed _ h1 _ (by simp [RGraph.children])⟩
  · intro b s a hsplit p hp
    -- where `s` is in the list of nodes
    obtain ⟨o1, o2, he, hb, ha⟩ := List.filterMap_eq_append_iff.1 hsplit
    obtain ⟨o3, n, o4, he2, hnil, hn, ho4⟩ := List.filterMap_eq_cons_iff.1 ha
    have hns : n = .region s := by
      cases n with
      | region s' => rw [Option.some.inj hn]
      | part _ _ _ => cases hn
    subst hns
    have hacyc : Acyclic G.children := by
      -- the partitions of regions that are not there are missing, so no node of the graph is below itself
      refine ⟨fun n => match n with | .region s => 2 * s.card | .part s a b => if (a, b) ∈ G.ch s then 2 * s.card - 1 else 2 * (a.card + b.card) + 1, ?_⟩
      intro u c hc
      cases u with
      | region r =>
        simp only [RGraph.children, List.mem_map] at hc
        obtain ⟨q, hq, rfl⟩ := hc
        have hr' := (h.split r q hq).1
        have := Finset.card_pos.2 (h.sub r hr').2
        dsimp only
        rw [if_pos hq]
        omega
      | part r x y =>
        simp only [RGraph.children, List.mem_cons, List.not_mem_nil, or_false] at hc
        by_cases hxy : (x, y) ∈ G.ch r
        · have hlt := (h.split r _ hxy).2.2.2.card_lt
          dsimp only at hlt
          rcases hc with rfl | rfl <;> dsimp only <;> rw [if_pos hxy] <;> omega
        · rcases hc with rfl | rfl <;> dsimp only <;> rw [if_neg hxy] <;> omega
    have hout : out = (o1 ++ o3) ++ RNode.region s :: o4 := by rw [he, he2, List.append_assoc]
    have hpart : RNode.part s p.1 p.2 ∈ o1 ++ o3 := by
      rcases ho.order hacyc _ _ _ hout (.part s p.1 p.2) (List.mem_map.2 ⟨p, hp, rfl⟩) with h' | h'
      · exact h'
      · exact absurd h' (Finset.notMem_empty _)
    have hbm : ∀ r, RNode.region r ∈ o1 ++ o3 → r ∈ b := by
      intro r hr
      rw [← hb]
      rcases List.mem_append.1 hr with hr | hr
      · exact List.mem_filterMap.2 ⟨_, hr, rfl⟩
      · have := hnil _ hr
        cases this
    obtain ⟨i, j, hij⟩ := List.append_of_mem hpart
    have hout2 : out = i ++ RNode.part s p.1 p.2 :: (j ++ RNode.region s :: o4) := by
      rw [hout, hij]
      simp
    have hch : ∀ c ∈ G.children (.part s p.1 p.2), c ∈ o1 ++ o3 := by
      intro c hc
      rcases ho.order hacyc _ _ _ hout2 c hc with h' | h'
      · rw [hij]
        exact List.mem_append_left _ h'
      · exact absurd h' (Finset.notMem_empty _)
    exact ⟨hbm _ (hch _ (by simp [RGraph.children])), hbm _ (hch _ (by simp [RGraph.children]))⟩

end Gospn
