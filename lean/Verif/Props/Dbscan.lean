/-
Theorems about density-based clustering: C38, utils/cluster/dbscan.go.
-/
import Verif.Proofs.Dbscan
import Verif.Spec.Dbscan
import Verif.Props.Matrix
import Verif.Props.Metrics

set_option linter.unusedSectionVars false
set_option linter.unusedSimpArgs false

namespace Gospn
open Spec GoFloat
variable {F : Type} [GoFloat F]

theorem mapM_some {α β : Type} {f : α → Option β} {g : α → β} : ∀ (l : List α), (∀ x ∈ l, f x = some (g x)) → l.mapM f = some (l.map g) := by
  intro l
  induction l with
  | nil => intro _; rfl
  | cons a l ih =>
    intro h
    rw [List.mapM_cons, h a (by simp), ih fun x hx => h x (by simp [hx])]
    rfl

theorem euclideanF_some (p q : List F) (h : p.length = q.length) : ∃ d, euclideanF p q = some d := by
  unfold euclideanF
  rw [foldlM_pair' (fun (s : F) a b => add s (mul (sub a b) (sub a b))) p q (ofInt 0) h]
  exact ⟨_, rfl⟩

/-- The distance matrix. -/
theorem distances_spec {data : List (List F)} (hr : Rectangular data) (eps : F) :
    ∃ dm, distances data = some dm ∧ ∀ i j, i < data.length → j < data.length → (nearBy dm eps i j = true ↔ Close data eps i j) := by
  refine ⟨data.map fun x => data.map fun y => (euclideanF x y).getD (ofInt 0), ?_, ?_⟩
  · unfold distances
    refine mapM_some _ fun x hx => mapM_some _ fun y hy => ?_
    obtain ⟨d, hd⟩ := euclideanF_some x y (hr x hx y hy)
    simp [hd]
  · intro i j hi hj
    obtain ⟨d, hd⟩ := euclideanF_some data[i] data[j] (hr _ (List.getElem_mem hi) _ (List.getElem_mem hj))
    simp only [nearBy, List.getElem?_map, List.getElem?_eq_getElem hi, List.getElem?_eq_getElem hj, Option.map_some, Option.bind_some, hd, Option.getD_some, Close]
    constructor
    · intro h
      exact ⟨_, _, d, rfl, rfl, hd, h⟩
    · rintro ⟨x, y, d', rfl', rfl'', hd', h⟩
      simp only [Option.some.injEq] at rfl' rfl''
      subst rfl' rfl''
      rw [hd] at hd'
      cases hd'
      exact h

/-- What `dbscanInternal` builds. -/
theorem dbscanInternal_spec {data : List (List F)} (hne : data ≠ []) (hr : Rectangular data) (eps : F) (mp : Int) :
    ∃ u root pairs, dbscanInternal data eps mp = some u ∧ UFOk u root pairs ∧ u.size = data.length ∧ u.ids = (List.range data.length).map (fun (i : Nat) => (i : Int)) ∧
      (∀ i j, Connected pairs i j → DensityLinked data eps mp i j) ∧ (mp ≤ 1 → ∀ i j, DensityLinked data eps mp i j → Connected pairs i j) := by
  obtain ⟨dm, h1, h2⟩ := distances_spec hr eps
  obtain ⟨u, root, pairs, g1, g2, g3, g4, g5, g6⟩ := scan_spec (near := nearBy dm eps) mp (List.length_pos_iff.2 hne)
  refine ⟨u, root, pairs, ?_, g2, g3, g4, ?_, ?_⟩
  · unfold dbscanInternal
    rw [h1]
    exact g1
  · intro i j hc
    unfold Spec.Connected at hc
    refine hc.mono ?_
    intro a b hab
    have hlt := g2.pairs_lt _ hab
    rw [g3] at hlt
    obtain ⟨k1, k2⟩ := g5 _ hab
    refine ⟨?_, (h2 a b hlt.1 hlt.2).1 k1⟩
    unfold Core
    refine le_trans k2 ?_
    unfold degree
    refine le_of_eq (congrArg (fun (l : List Nat) => (l.length : Int)) ?_)
    apply List.filter_congr
    intro z hz
    rw [decide_eq_decide]
    exact and_congr_right fun _ => h2 a z hlt.1 (List.mem_range.1 hz)
  · intro hmp i j hc
    unfold Spec.DensityLinked at hc
    induction hc with
    | rel a b hab =>
      obtain ⟨_, x, y, d, hx, hy, hd, hle⟩ := hab
      have ha : a < data.length := (List.getElem?_eq_some_iff.1 hx).1
      have hb : b < data.length := (List.getElem?_eq_some_iff.1 hy).1
      exact g6 hmp a ha b hb ((h2 a b ha hb).2 ⟨x, y, d, hx, hy, hd, hle⟩)
    | refl a => exact .refl _
    | symm a b _ ih => exact .symm _ _ ih
    | trans a b c _ _ ih1 ih2 => exact .trans _ _ _ ih1 ih2

/-- C38 for `DBSCAN` on matrices: the clusters are a partition of the rows, each row unchanged under its number; rows in the same cluster are density-linked;
for `mp ≤ 1` the clusters are exactly the classes of density-linked rows.
Missing: that density-linked rows are in the same cluster for `mp ≥ 2`, which fails (`C38_density_refuted`); and `DBSCANData` (`C38_refuted`). -/
theorem C38_dbscan_partial (data : List (List Int)) (hne : data ≠ []) (hr : Rectangular data) (eps : F) (mp : Int) :
    ∃ K R, dbscan data eps mp = some (K.map fun s l => if l ∈ s then data[l.toNat]? else none) ∧
      IsPartitionInto ((List.range data.length).map fun (i : Nat) => (i : Int)) R K ∧
      (∀ i j, R i j → DensityLinked (data.map (·.map (ofInt : Int → F))) eps mp i j) ∧
      (mp ≤ 1 → ∀ i j, R i j ↔ DensityLinked (data.map (·.map (ofInt : Int → F))) eps mp i j) := by
  have hne' : data.map (·.map (ofInt : Int → F)) ≠ [] := by simpa using hne
  have hr' : Rectangular (data.map (·.map (ofInt : Int → F))) := by
    intro x hx y hy
    obtain ⟨x', hx', rfl⟩ := List.mem_map.1 hx
    obtain ⟨y', hy', rfl⟩ := List.mem_map.1 hy
    simpa using hr x' hx' y' hy'
  obtain ⟨u, root, pairs, h1, h2, h3, h4, h5, h6⟩ := dbscanInternal_spec hne' hr' eps mp
  rw [List.length_map] at h3 h4
  obtain ⟨K, g1, g2⟩ := collectSets_partition h2 (by rw [h4]; exact List.nodup_range.map fun a b h => by simpa using h)
  rw [h4] at g2
  refine ⟨K, _, ?_, g2, h5, fun hmp i j => ⟨h5 i j, h6 hmp i j⟩⟩
  obtain ⟨d0, data', rfl⟩ := List.exists_cons_of_ne_nil hne
  unfold dbscan
  rw [h1]
  simp only [Option.bind_some, List.getElem?_cons_zero]
  rw [h3] at g1
  rw [g1]
  simp only [Option.bind_some]
  refine mapM_some _ ?_
  intro s hs
  have hmem : ∀ l ∈ s, 0 ≤ l ∧ l.toNat < (d0 :: data').length := by
    intro l hl
    have : l ∈ K.flatten := List.mem_flatten.2 ⟨s, hs, hl⟩
    rw [g2.1.mem_iff] at this
    obtain ⟨i, hi, rfl⟩ := List.mem_map.1 this
    have := List.mem_range.1 hi
    constructor
    · omega
    · simpa using this
  have aux : ∀ (l : List Int) (c : Int → Option (List Int)), (∀ z ∈ l, z ∈ s) →
      l.foldlM (fun (c : Int → Option (List Int)) l => (goIdx (d0 :: data') l).map fun row =>
        fun z => if z = l then some (row.take d0.length ++ List.replicate (d0.length - row.length) 0) else c z) c =
      some (fun z => if z ∈ l then (d0 :: data')[z.toNat]? else c z) := by
    intro l
    induction l with
    | nil => intro c _; simp
    | cons a l ih =>
      intro c hl
      obtain ⟨ha0, ha⟩ := hmem a (hl a (by simp))
      have e1 : goIdx (d0 :: data') a = some (d0 :: data')[a.toNat] := by
        unfold goIdx
        rw [if_neg (by omega), List.getElem?_eq_getElem ha]
      have e2 : ((d0 :: data')[a.toNat]).length = d0.length := hr _ (List.getElem_mem ha) _ (by simp)
      rw [List.foldlM_cons, e1]
      simp only [Option.map_some, bind, Option.bind_some]
      refine (ih _ fun z hz => hl z (by simp [hz])).trans ?_
      congr 1
      funext z
      by_cases hz : z ∈ l
      · simp [hz]
      · by_cases hza : z = a
        · subst hza
          simp only [hz, if_false, List.mem_cons, true_or, if_true]
          rw [List.getElem?_eq_getElem ha]
          congr 1
          rw [← e2]
          simp
        · simp [hz, hza]
  have := aux s (fun _ => none) fun _ h => h
  exact this

/-! ### `DBSCANData` -/

theorem goPush_bounds {α : Type} {C C' : List (List α)} {g : Int} {y : α} (h : goPush C g y = some C') : 0 ≤ g ∧ g < C.length ∧ C'.length = C.length := by
  unfold goPush at h
  obtain ⟨x, hx, h⟩ := Option.bind_eq_some_iff.1 h
  unfold goSet at h
  split at h
  · rename_i hb
    simp only [Option.some.injEq] at h
    subst h
    exact ⟨hb.1, hb.2, by simp⟩
  · simp at h

theorem groupAll_bounds {α : Type} (f : Nat → Option α) : ∀ (G : List Int) (i : Nat) (C C' : List (List α)),
    (G.zipIdx i).foldlM (fun C (g : Int × Nat) => (f g.2).bind fun y => goPush C g.1 y) C = some C' → ∀ g ∈ G, 0 ≤ g ∧ g < C.length := by
  intro G
  induction G with
  | nil => intro _ _ _ _ g hg; simp at hg
  | cons a G ih =>
    intro i C C' h g hg
    rw [List.zipIdx_cons, List.foldlM_cons] at h
    simp only [bind] at h
    obtain ⟨C1, h1, h2⟩ := Option.bind_eq_some_iff.1 h
    obtain ⟨y, _, h3⟩ := Option.bind_eq_some_iff.1 h1
    obtain ⟨b1, b2, b3⟩ := goPush_bounds h3
    rcases List.mem_cons.1 hg with rfl | hg
    · exact ⟨b1, b2⟩
    · have := ih (i + 1) C1 C' h2 g hg
      rw [b3] at this
      exact this

theorem guessToData_bounds {k : Nat} {G : List Int} {M : List (List F)} {Sc : VarSet} {C : List (List VarSet)} (h : guessToData (k : Int) G M Sc = some C) :
    ∀ g ∈ G, 0 ≤ g ∧ g < k := by
  unfold guessToData at h
  rw [if_neg (by omega), Int.toNat_natCast] at h
  have := groupAll_bounds (fun i => (M[i]?).map fun row => row.zipIdx.foldl (fun (I : VarSet) (x : F × Nat) => I.set (Sc.get x.2) (toInt x.1)) VarSet.empty) G 0 (List.replicate k []) C (by
    rw [← h]
    congr 1
    funext C g
    cases M[g.2]? <;> rfl)
  simpa using this

/-- The loop that numbers the clusters: every row gets the number of its representative, and `k` counts the representatives. -/
theorem number_spec {u : UF} {root : Nat → Nat} {pairs : List (Nat × Nat)} (h : UFOk u root pairs) (hid : ∀ i < u.size, u.varid i = (i : Int)) :
    (List.range u.size).foldlM (fun (st : List Int × Int) (i : Nat) =>
      if u.pa i = i then
        (u.varids i).bind fun ch => (ch.foldlM (fun G c => goSet G c (i : Int)) st.1).map fun G => (G, st.2 + 1)
      else some st) (List.replicate u.size (0 : Int), (0 : Int)) =
    some ((List.range u.size).map (fun z => (root z : Int)), (((List.range u.size).filter fun i => decide (root i = i)).length : Int)) := by
  have hset : ∀ (n : Nat) (i : Nat) (d : List Nat) (f : Nat → Int), (∀ z ∈ d, z < n) →
      (d.map fun (z : Nat) => (z : Int)).foldlM (fun G c => goSet G c (i : Int)) ((List.range n).map f) = some ((List.range n).map fun z => if z ∈ d then (i : Int) else f z) := by
    intro n i d
    induction d with
    | nil => intro f _; simp
    | cons z d ih =>
      intro f hd
      rw [List.map_cons, List.foldlM_cons, goSet_nat _ _ _ (by simpa using hd z (by simp)), range_map_set]
      simp only [bind, Option.bind_some]
      refine (ih _ fun y hy => hd y (by simp [hy])).trans ?_
      congr 1
      apply List.map_congr_left
      intro y _
      by_cases h1 : y ∈ d
      · simp [h1]
      · by_cases h2 : y = z <;> simp [h1, h2]
  have aux : ∀ n ≤ u.size, (List.range n).foldlM (fun (st : List Int × Int) (i : Nat) =>
      if u.pa i = i then
        (u.varids i).bind fun ch => (ch.foldlM (fun G c => goSet G c (i : Int)) st.1).map fun G => (G, st.2 + 1)
      else some st) (List.replicate u.size (0 : Int), (0 : Int)) =
      some ((List.range u.size).map (fun z => if root z < n then (root z : Int) else 0), (((List.range n).filter fun i => decide (root i = i)).length : Int)) := by
    intro n
    induction n with
    | zero => intro _; simp
    | succ n ih =>
      intro hn
      rw [List.range_succ, List.foldlM_append, ih (by omega)]
      simp only [bind, Option.bind_some, List.foldlM_cons, List.foldlM_nil, List.filter_append]
      by_cases hp : u.pa n = n
      · have hroot : root n = n := (h.forest.pa_iff (by omega)).1 hp
        obtain ⟨d, e1, e2, e3⟩ := h.varids (r := n) (by omega) hp
        have e4 : d.map u.varid = d.map fun (z : Nat) => (z : Int) := by
          apply List.map_congr_left
          intro z hz
          exact hid z ((e3 z).1 hz).1
        rw [if_pos hp, e1]
        simp only [Option.bind_some]
        rw [e4, hset u.size n d _ fun z hz => ((e3 z).1 hz).1]
        simp only [Option.map_some, Option.bind_some, pure]
        congr 2
        · apply List.map_congr_left
          intro z hz
          have hz' := List.mem_range.1 hz
          by_cases hzd : z ∈ d
          · have := ((e3 z).1 hzd).2
            simp [hzd, this]
          · have : root z ≠ n := fun hr => hzd ((e3 z).2 ⟨hz', hr⟩)
            simp only [hzd, if_false]
            by_cases hlt : root z < n
            · simp [hlt, Nat.lt_succ_of_lt hlt]
            · have : ¬ root z < n + 1 := by omega
              simp [hlt, this]
        · simp [hroot]
      · have hroot : root n ≠ n := fun hr => hp ((h.forest.pa_iff (by omega)).2 hr)
        rw [if_neg hp]
        simp only [Option.bind_some, pure]
        congr 2
        · apply List.map_congr_left
          intro z hz
          have hz' := List.mem_range.1 hz
          have hne : root z ≠ n := by
            intro hr
            apply hroot
            rw [← hr]
            exact h.forest.root_root hz'
          by_cases hlt : root z < n
          · simp [hlt, Nat.lt_succ_of_lt hlt]
          · have : ¬ root z < n + 1 := by omega
            simp [hlt, this]
        · simp [hroot]
  rw [aux u.size (le_refl _)]
  congr 2
  apply List.map_congr_left
  intro z hz
  rw [if_pos (h.forest.root_lt z (List.mem_range.1 hz))]

/-- C38 for `DBSCANData`, whenever it returns: the clusters are a partition of the dataset in non-empty clusters, instances unchanged and in order;
instances in the same cluster are density-linked (as rows of the matrix), and exactly those for `mp ≤ 1`.
Missing: that it returns. It panics on most inputs (`C38_refuted`). -/
theorem C38_returned_partial {ord : MapOrder} {D : List VarSet} (hne : D ≠ []) (ho : OrdersOf ord D) (hs : SameVars D)
    (hr : ∀ x ∈ D, ∀ c v, x c = some v → toInt (ofInt v : F) = v) (eps : F) (mp : Int) {C : List (List VarSet)} (hC : dbscanData ord D eps mp = some C) :
    ∃ (g : Nat → Nat) (M : List (List F)) (Sc : VarSet), dataToMatrix (ofInt : Int → F) (ofInt 0) ord D = some (M, Sc) ∧
      (∀ i < D.length, g i < C.length) ∧ (∀ a < C.length, C[a]? = some ((D.zipIdx.filter fun x => g x.2 = a).map Prod.fst)) ∧ C.flatten.Perm D ∧ [] ∉ C ∧
      (∀ i < D.length, ∀ j < D.length, g i = g j → DensityLinked M eps mp i j) ∧
      (mp ≤ 1 → ∀ i < D.length, ∀ j < D.length, (g i = g j ↔ DensityLinked M eps mp i j)) := by
  obtain ⟨I0, D', rfl⟩ := List.exists_cons_of_ne_nil hne
  have hen := ho 0 I0 (by simp)
  have hall : ∀ x ∈ I0 :: D', Enumerates x (ord 0 I0) := by
    intro x hx
    refine ⟨hen.1, fun k => ?_⟩
    rw [hen.2 k, hs I0 (by simp) x hx]
  have hM := dataToMatrix_spec (ofInt : Int → F) (ofInt 0) (I0 := I0) rfl ho hs
  generalize hMdef : ((I0 :: D').map fun I => (ord 0 I0).map fun k => (ofInt (I.get k) : F)) = M at hM
  have hMlen : M.length = (I0 :: D').length := by rw [← hMdef]; simp
  have hMne : M ≠ [] := by rw [← hMdef]; simp
  have hMr : Rectangular M := by
    intro x hx y hy
    rw [← hMdef] at hx hy
    obtain ⟨x', _, rfl⟩ := List.mem_map.1 hx
    obtain ⟨y', _, rfl⟩ := List.mem_map.1 hy
    simp
  obtain ⟨u, root, pairs, h1, h2, h3, h4, h5, h6⟩ := dbscanInternal_spec hMne hMr eps mp
  have hid : ∀ i < u.size, u.varid i = (i : Int) := by
    intro i hi
    refine (UF.ids_get (u := u) (i := i) ?_).2
    rw [h4]
    rw [h3] at hi
    simp [hi]
  have hnum := number_spec h2 hid
  unfold dbscanData at hC
  rw [hM] at hC
  simp only [Option.bind_some] at hC
  rw [h1] at hC
  simp only [Option.bind_some] at hC
  rw [← h3, hnum] at hC
  simp only [Option.bind_some] at hC
  have hb := guessToData_bounds hC
  have hs3 : u.size = (I0 :: D').length := by rw [h3, hMlen]
  generalize hk : ((List.range u.size).filter fun i => decide (root i = i)).length = k at hC hb
  have hg : guessToData (k : Int) ((List.range u.size).map fun z => (root z : Int)) M (columnVars (ord 0 I0)) =
      some ((List.range k).map fun (a : Nat) => (((I0 :: D').zip ((List.range u.size).map fun z => (root z : Int))).filter fun x => x.2 = (a : Int)).map Prod.fst) := by
    rw [← hMdef]
    exact guessToData_spec hall hr (by simp [hs3]) hb
  rw [hg] at hC
  simp only [Option.some.injEq] at hC
  have hroot : ∀ i < (I0 :: D').length, root i < k := by
    intro i hi
    have := hb (root i : Int) (List.mem_map.2 ⟨i, List.mem_range.2 (by omega), rfl⟩)
    omega
  have hzip : (I0 :: D').zip ((List.range u.size).map fun z => (root z : Int)) = (I0 :: D').zipIdx.map fun x => (x.1, (root x.2 : Int)) := by
    rw [hs3]
    generalize I0 :: D' = E
    apply List.ext_getElem
    · simp
    · intro i h1 h2; simp
  have hget : ∀ a < k, C[a]? = some (((I0 :: D').zipIdx.filter fun x => root x.2 = a).map Prod.fst) := by
    intro a ha
    rw [← hC, List.getElem?_map, List.getElem?_range ha, Option.map_some, hzip, List.filter_map, List.map_map]
    congr 1
    have : ((fun x : VarSet × Int => decide (x.2 = (a : Int))) ∘ fun x : VarSet × Nat => (x.1, (root x.2 : Int))) = fun x => decide (root x.2 = a) := by
      funext x
      simp
    rw [this]
    rfl
  have hClen : C.length = k := by rw [← hC]; simp
  refine ⟨root, M, columnVars (ord 0 I0), hM, ?_, ?_, ?_, ?_, ?_, ?_⟩
  · intro i hi; rw [hClen]; exact hroot i hi
  · intro a ha; exact hget a (by omega)
  · rw [← hC]
    refine (groups_perm k _ ?_).trans ?_
    · rintro ⟨a, g⟩ hx
      exact hb g (List.of_mem_zip hx).2
    · rw [List.map_fst_zip (by simp [hs3])]
  · -- the k representatives are 0, …, k-1
    intro hnil
    obtain ⟨a, ha, hae⟩ := List.getElem_of_mem hnil
    have hak : a < k := by omega
    have hsub : ((List.range u.size).filter fun i => decide (root i = i)).toFinset ⊆ Finset.range k := by
      intro r hr
      rw [List.mem_toFinset, List.mem_filter, List.mem_range, decide_eq_true_eq] at hr
      rw [Finset.mem_range, ← hr.2]
      exact hroot r (by omega)
    have hcard : ((List.range u.size).filter fun i => decide (root i = i)).toFinset.card = k := by
      rw [List.toFinset_card_of_nodup (List.nodup_range.filter _), hk]
    have heq := Finset.eq_of_subset_of_card_le hsub (by rw [hcard]; simp)
    have : a ∈ ((List.range u.size).filter fun i => decide (root i = i)).toFinset := by
      rw [heq]; exact Finset.mem_range.2 hak
    rw [List.mem_toFinset, List.mem_filter, List.mem_range, decide_eq_true_eq] at this
    have h7 := hget a hak
    rw [List.getElem?_eq_getElem ha, hae] at h7
    simp only [Option.some.injEq] at h7
    have h8 : (I0 :: D')[a]'(by omega) ∈ ((I0 :: D').zipIdx.filter fun x => root x.2 = a).map Prod.fst := by
      refine List.mem_map.2 ⟨((I0 :: D')[a]'(by omega), a), List.mem_filter.2 ⟨?_, by simpa using this.2⟩, rfl⟩
      rw [List.mk_mem_zipIdx_iff_getElem?]
      exact List.getElem?_eq_getElem _
    rw [← h7] at h8
    simp at h8
  · intro i hi j hj he
    exact h5 i j ((h2.conn i (by omega) j (by omega)).1 he)
  · intro hmp i hi j hj
    refine ⟨fun he => h5 i j ((h2.conn i (by omega) j (by omega)).1 he), fun hl => (h2.conn i (by omega) j (by omega)).2 (h6 hmp i j hl)⟩

end Gospn
