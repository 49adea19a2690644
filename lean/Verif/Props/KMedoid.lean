import Verif.Proofs.KMedoid
set_option linter.unusedSectionVars false
set_option linter.unusedSimpArgs false
/-
C80: KMedoid returns.
-/
namespace Gospn
open Spec GoFloat

theorem rowMatches_eq : ∀ (p q : List Int), p.length = q.length → rowMatches p q = some (decide (p = q)) := by
  intro p
  induction p with
  | nil => intro q h; cases q with
    | nil => rfl
    | cons => simp at h
  | cons x p ih => intro q h; cases q with
    | nil => simp at h
    | cons y q =>
      unfold rowMatches
      by_cases hxy : x = y
      · subst hxy; rw [if_neg (by simp), ih q (by simpa using h)]; simp
      · rw [if_pos hxy]; simp [hxy]

theorem matchesSome_eq {W : Nat} {data : List (List Int)} (hrect : RowsOfLength W data) {row : List Int} (hrow : row.length = W) : ∀ (ms : List Nat),
    (∀ m ∈ ms, m < data.length) → matchesSome data row ms = some (decide (row ∈ ms.map fun m => data.getD m [])) := by
  intro ms
  induction ms with
  | nil => intro _; simp [matchesSome]
  | cons m ms ih =>
    intro h
    have hm := h m (by simp)
    have hg : data.getD m [] = data[m] := getD_of_getElem? (List.getElem?_eq_getElem hm)
    unfold matchesSome
    rw [rowMatches_eq _ _ (by rw [hrow, hg, hrect _ (List.getElem_mem hm)]), Option.bind_some]
    by_cases he : row = data.getD m []
    · simp only [he, decide_true, if_true, List.map_cons, List.mem_cons, true_or]
    · simp only [he, decide_false, Bool.false_eq_true, if_false, List.map_cons, List.mem_cons, false_or]
      exact ih fun a ha => h a (by simp [ha])

theorem medoid_mean_lt {data : List (List Int)} {c : Nat} {st : MedoidState} {chk : List (Option Nat)} (h : MedoidInv data c st chk) {m : Nat} (hm : m ∈ st.means) :
    m < data.length := by
  obtain ⟨j, hj, rfl⟩ := List.getElem_of_mem hm
  have hj' : j < st.clusters.length := by rw [h.clen, ← h.mlen]; exact hj
  have := h.medoid j _ _ (List.getElem?_eq_getElem hj') (List.getElem?_eq_getElem hj)
  exact chk_lt h.len (((h.mem j _ (List.getElem?_eq_getElem hj')).2 _).1 this)

/-- Starting a cluster with an unassigned row. -/
theorem medoidStart_ok {data : List (List Int)} {W c : Nat} {ord : List Nat → List Nat} (hrect : RowsOfLength W data) (hord : ∀ l, (ord l).Perm l) {st : MedoidState}
    {chk : List (Option Nat)} (h : MedoidInv data c st chk) {r : Nat} {row : List Int} (hrow : data[r]? = some row) (hnone : chk.getD r none = none) :
    medoidInsert ord data ⟨st.means ++ [r], st.clusters ++ [[]]⟩ c row r = some ⟨st.means ++ [r], st.clusters ++ [[r]]⟩ ∧
    MedoidInv data (c + 1) ⟨st.means ++ [r], st.clusters ++ [[r]]⟩ (chk.set r (some c)) := by
  have hr := (List.getElem?_eq_some_iff.1 hrow).1
  have hgr : data.getD r [] = row := getD_of_getElem? hrow
  have hrl : row.length = W := hrect row (List.mem_of_getElem? hrow)
  have hp : ord [r] = [r] := List.perm_singleton.1 (hord [r])
  have e1 : (st.clusters ++ [[]])[c]? = some [] := by rw [← h.clen]; simp
  have e2 : (st.means ++ [r])[c]? = some r := by rw [← h.mlen]; simp
  refine ⟨?_, ?_⟩
  · unfold medoidInsert
    simp only [e1, e2, Option.bind_some, List.not_mem_nil, if_false, List.nil_append, hp]
    have hmr : medoidRow data [r] r = row := by simp [medoidRow, hrow]
    rw [hmr, sumHamming_eq hrect hrl (by intro i hi; rw [List.mem_singleton.1 hi]; exact hr)]
    simp only [Option.bind_some, Option.map_some, lt_self_iff_false, if_false]
    rw [← h.clen]; simp
  · refine ⟨by simp [h.mlen], by simp [h.clen], by simp [h.len], ?_, ?_, ?_⟩
    · intro a v hv
      by_cases hia : r = a
      · subst hia
        rw [getD_set_eq _ _ _ (by rw [h.len]; exact hr)] at hv; cases hv; omega
      · rw [getD_set_ne _ _ _ hia] at hv; have := h.bound a v hv; omega
    · intro j cl hcl
      dsimp only at hcl
      rw [List.getElem?_append] at hcl
      split at hcl
      · rename_i hj
        rw [h.clen] at hj
        refine ⟨(h.mem j cl hcl).1, fun a => ?_⟩
        by_cases hia : r = a
        · subst hia
          rw [getD_set_eq _ _ _ (by rw [h.len]; exact hr), (h.mem j cl hcl).2 r, hnone]
          simp; omega
        · rw [getD_set_ne _ _ _ hia]; exact (h.mem j cl hcl).2 a
      · rename_i hj
        rw [h.clen] at hj hcl
        have hjc : j = c := by
          have := (List.getElem?_eq_some_iff.1 hcl).1
          simp at this; omega
        subst hjc
        simp only [Nat.sub_self, List.getElem?_cons_zero] at hcl
        cases hcl
        refine ⟨List.nodup_singleton r, fun a => ?_⟩
        by_cases hia : r = a
        · subst hia
          rw [getD_set_eq _ _ _ (by rw [h.len]; exact hr)]; simp
        · rw [getD_set_ne _ _ _ hia]
          constructor
          · intro ha; rw [List.mem_singleton] at ha; exact absurd ha.symm hia
          · intro ha; have := h.bound a j ha; omega
    · intro j cl m hcl hm
      dsimp only at hcl hm
      rw [List.getElem?_append] at hcl hm
      rw [h.clen] at hcl
      rw [h.mlen] at hm
      split at hcl
      · rename_i hj
        rw [if_pos hj] at hm
        exact h.medoid j cl m hcl hm
      · rename_i hj
        rw [if_neg hj] at hm
        have hjc : j - c = 0 := by
          have := (List.getElem?_eq_some_iff.1 hcl).1
          simp at this; omega
        rw [hjc, List.getElem?_cons_zero] at hcl hm
        cases hcl; cases hm; simp

theorem medoidInit_spec {data : List (List Int)} {W k : Nat} {ord : List Nat → List Nat} (hrect : RowsOfLength W data) (hord : ∀ l, (ord l).Perm l) :
    ∀ (picks : List Nat) (st : MedoidState) (chk : List (Option Nat)), picks.Nodup → (∀ r ∈ picks, r < data.length) → (∀ r ∈ picks, chk.getD r none = none) →
    MedoidInv data st.means.length st chk → st.means.length ≤ k → (st.means.map fun m => data.getD m []).Nodup →
    ∃ st' chk', medoidInit ord data k picks (st, chk) = some (st', chk') ∧ MedoidInv data st'.means.length st' chk' ∧ st'.means.length ≤ k ∧
      (st'.means.map fun m => data.getD m []).Nodup ∧ (∀ m ∈ st.means, m ∈ st'.means) ∧
      (st'.means.length = k ∨ ∀ r ∈ picks, data.getD r [] ∈ st'.means.map fun m => data.getD m []) := by
  intro picks
  induction picks with
  | nil => intro st chk _ _ _ h hk hnd; exact ⟨st, chk, rfl, h, hk, hnd, fun _ hm => hm, Or.inr (by simp)⟩
  | cons r rs ih =>
    intro st chk hpn hpl hpc h hk hnd
    have hr := hpl r (by simp)
    have hrow : data[r]? = some data[r] := List.getElem?_eq_getElem hr
    have hgr : data.getD r [] = data[r] := getD_of_getElem? hrow
    unfold medoidInit
    by_cases hfull : st.means.length = k
    · rw [if_pos hfull]
      exact ⟨st, chk, rfl, h, hk, hnd, fun _ hm => hm, Or.inl hfull⟩
    · simp only [if_neg hfull, hrow, Option.bind_some, matchesSome_eq hrect (hrect _ (List.getElem_mem hr)) st.means (fun m hm => medoid_mean_lt h hm)]
      by_cases hin : data[r] ∈ st.means.map fun m => data.getD m []
      · rw [if_pos (by simpa using hin)]
        obtain ⟨st', chk', e, h1, h2, h3, h4, h5⟩ := ih st chk (List.nodup_cons.1 hpn).2 (fun a ha => hpl a (by simp [ha])) (fun a ha => hpc a (by simp [ha])) h hk hnd
        refine ⟨st', chk', e, h1, h2, h3, h4, ?_⟩
        rcases h5 with h5 | h5
        · exact Or.inl h5
        · refine Or.inr fun a ha => ?_
          rcases List.mem_cons.1 ha with rfl | ha
          · rw [hgr]
            obtain ⟨m, hm, hm2⟩ := List.mem_map.1 hin
            exact List.mem_map.2 ⟨m, h4 m hm, hm2⟩
          · exact h5 a ha
      · rw [if_neg (by simpa using hin)]
        obtain ⟨e1, h1⟩ := medoidStart_ok (ord := ord) hrect hord h hrow (hpc r (by simp))
        show ∃ st' chk', (medoidInsert ord data _ _ _ _).bind _ = _ ∧ _
        rw [e1, Option.bind_some]
        have hlen : (st.means ++ [r]).length = st.means.length + 1 := by simp
        obtain ⟨st', chk', e, g1, g2, g3, g4, g5⟩ := ih ⟨st.means ++ [r], st.clusters ++ [[r]]⟩ (chk.set r (some st.means.length)) (List.nodup_cons.1 hpn).2
          (fun a ha => hpl a (by simp [ha])) (fun a ha => by
            rw [getD_set_ne _ _ _ (by rintro rfl; exact (List.nodup_cons.1 hpn).1 ha)]; exact hpc a (by simp [ha]))
          (by dsimp only; rw [hlen]; exact h1) (by dsimp only; rw [hlen]; omega) (by
            dsimp only
            rw [List.map_append, List.nodup_append]
            refine ⟨hnd, by simp, ?_⟩
            rintro a ha b hb rfl
            simp only [List.map_cons, List.map_nil, List.mem_singleton] at hb
            rw [hgr] at hb; subst hb
            exact hin ha)
        refine ⟨st', chk', e, g1, g2, g3, fun m hm => g4 m (by simp [hm]), ?_⟩
        rcases g5 with g5 | g5
        · exact Or.inl g5
        · refine Or.inr fun a ha => ?_
          rcases List.mem_cons.1 ha with rfl | ha
          · exact List.mem_map.2 ⟨a, g4 a (by simp), rfl⟩
          · exact g5 a ha

theorem centreRun_stays {σ : Type} (O : CentreOps σ) (k : Nat) (data : List (List Int)) : ∀ (m : Nat) (L L' : CentreLoop σ),
    centreRun O k data m L = some L' → data.length ≤ L'.nochange → ∀ m', m ≤ m' → centreRun O k data m' L = some L' := by
  intro m
  induction m with
  | zero =>
    intro L L' h hn m' _
    cases h
    cases m' with
    | zero => rfl
    | succ m' => unfold centreRun; rw [if_neg (by omega)]
  | succ m ih =>
    intro L L' h hn m' hm
    obtain ⟨m', rfl⟩ : ∃ q, m' = q + 1 := ⟨m' - 1, by omega⟩
    unfold centreRun at h ⊢
    split
    · rename_i hlt
      rw [if_pos hlt] at h
      cases hs : centreStep O k data L with
      | none => rw [hs] at h; cases h
      | some M => rw [hs] at h; exact ih M L' h hn m' (by omega)
    · rename_i hlt
      rwa [if_neg hlt] at h

/-- The rows `picks` in the order in which they come up: all rows, each once. -/
theorem medoidInit_full {data : List (List Int)} {W k : Nat} {ord : List Nat → List Nat} (hrect : RowsOfLength W data) (hord : ∀ l, (ord l).Perm l) {picks : List Nat}
    (hp : picks.Perm (List.range data.length)) :
    ∃ st chk, medoidInit ord data k picks (⟨[], []⟩, List.replicate data.length none) = some (st, chk) ∧ MedoidInv data st.means.length st chk ∧
      st.means.length = min k data.dedup.length := by
  have hpl : ∀ r ∈ picks, r < data.length := fun r hr => List.mem_range.1 (hp.mem_iff.1 hr)
  have h0 : ∀ i, (List.replicate data.length (none : Option Nat)).getD i none = none := by
    intro i
    rw [List.getD_eq_getElem?_getD, List.getElem?_replicate]; split <;> rfl
  obtain ⟨st, chk, e, h1, h2, h3, _, h5⟩ := medoidInit_spec (k := k) hrect hord picks ⟨[], []⟩ (List.replicate data.length none) (hp.nodup_iff.2 List.nodup_range) hpl
    (fun r _ => h0 r) ⟨rfl, rfl, by simp, (by intro i v hv; rw [h0] at hv; cases hv), (by intro c cl h; simp at h), (by intro c cl m h; simp at h)⟩ (by simp) (by simp)
  refine ⟨st, chk, e, h1, ?_⟩
  have hle : st.means.length ≤ data.dedup.length := by
    have := (List.subperm_of_subset h3 (fun x hx => by
      obtain ⟨m, hm, rfl⟩ := List.mem_map.1 hx
      rw [List.mem_dedup, getD_of_getElem? (List.getElem?_eq_getElem (medoid_mean_lt h1 hm))]
      exact List.getElem_mem _ : (st.means.map fun m => data.getD m []) ⊆ data.dedup)).length_le
    simpa using this
  rcases h5 with h5 | h5
  · omega
  · have := (List.subperm_of_subset (List.nodup_dedup data) (fun x hx => by
      rw [List.mem_dedup] at hx
      obtain ⟨i, hi, rfl⟩ := List.getElem_of_mem hx
      have := h5 i (hp.mem_iff.2 (List.mem_range.2 hi))
      rwa [getD_of_getElem? (List.getElem?_eq_getElem hi)] at this : data.dedup ⊆ st.means.map fun m => data.getD m [])).length_le
    rw [List.length_map] at this
    omega

/-- If the data have at least `k` different rows, KMedoid returns (after some number of iterations, without a panic): a partition of the rows into `k`
clusters, each with one of its rows as medoid, so that every row is in the cluster of a medoid nearest to it. -/
theorem C80_returns (W k : Nat) (data : List (List Int)) (picks : List Nat) (ord : List Nat → List Nat) (hrect : RowsOfLength W data)
    (hord : ∀ l, (ord l).Perm l) (hp : picks.Perm (List.range data.length)) (hk : 0 < k) (hd : k ≤ data.dedup.length) :
    (∀ m, kMedoid ord picks k data m ≠ none) ∧
    ∃ m C, (∀ m' ≥ m, kMedoid ord picks k data m' = some (some C)) ∧ PartitionsRows k data C ∧
      ∃ medoids : List Nat, medoids.length = k ∧ (∀ (c m : Nat) (G : Nat → Option (List Int)), medoids[c]? = some m → C[c]? = some G → G m ≠ none) ∧
        NearestCentres (medoids.map fun m => data.getD m []) data C := by
  obtain ⟨st, chk, e, h1, h2⟩ := medoidInit_full (k := k) hrect hord hp
  rw [min_eq_left hd] at h2
  rw [h2] at h1
  have hn : 0 < data.length := by
    have := (List.dedup_sublist data).length_le
    omega
  have hinv := medoidCentreInv (k := k) (ord := ord) hrect hord
  have hL0 : LoopInv k data (MedoidInv data k) (medoidDist data) ⟨st, chk, 0, 0⟩ := ⟨h1, hn, by intro d hd1 hd2; simp only at hd2; omega⟩
  have hbuild : ∀ L, LoopInv k data (MedoidInv data k) (medoidDist data) L → data.length ≤ L.nochange →
      ∃ C, buildClusters k data L.chk = some C ∧ PartitionsRows k data C ∧
      ∃ medoids : List Nat, medoids.length = k ∧ (∀ (c m : Nat) (G : Nat → Option (List Int)), medoids[c]? = some m → C[c]? = some G → G m ≠ none) ∧
        NearestCentres (medoids.map fun m => data.getD m []) data C := by
    intro L hL hnc
    have hset := hL.all_settled hnc
    obtain ⟨C, e3, h4, h5⟩ := buildClusters_spec k data L.chk (fun i hi => by obtain ⟨v, hv, hvk, _⟩ := hset i hi; exact ⟨v, hv, hvk⟩)
    refine ⟨C, e3, h4, L.st.means, hL.inv.mlen, ?_, ?_⟩
    · intro c m G hm hG
      have hc : c < L.st.clusters.length := by rw [hL.inv.clen, ← hL.inv.mlen]; exact (List.getElem?_eq_some_iff.1 hm).1
      have hmem := hL.inv.medoid c _ m (List.getElem?_eq_getElem hc) hm
      have hchk := ((hL.inv.mem c _ (List.getElem?_eq_getElem hc)).2 m).1 hmem
      have hml := chk_lt hL.inv.len hchk
      rw [h5 c G hG m, if_pos ⟨hml, hchk⟩, List.getElem?_eq_getElem hml]
      simp
    · intro i row hrow c G mean hG hne hm m' hm'
      have hi := (List.getElem?_eq_some_iff.1 hrow).1
      obtain ⟨v, hv, hvk, hmin⟩ := hset i hi
      have hGi := h5 c G hG i
      have hvc : v = c := by
        by_contra hvc
        rw [if_neg (fun h => hvc (by have := h.2; rw [hv] at this; exact Option.some.inj this))] at hGi
        exact hne hGi
      subst hvc
      obtain ⟨j, hj, rfl⟩ := List.getElem_of_mem hm'
      rw [List.length_map] at hj
      have := hmin row hrow j (by rw [← hL.inv.mlen]; exact hj)
      rw [List.getElem?_map, Option.map_eq_some_iff] at hm
      obtain ⟨a, ha, rfl⟩ := hm
      unfold medoidDist at this
      rw [getD_of_getElem? ha, getD_of_getElem? (List.getElem?_eq_getElem hj)] at this
      rw [List.getElem_map]
      exact_mod_cast this
  refine ⟨?_, ?_⟩
  · intro m
    obtain ⟨L, e2, hL⟩ := centreRun_inv hinv hk m hL0
    unfold kMedoid
    simp only [e, Option.bind_some, e2]
    split
    · simp
    · rename_i hnc
      obtain ⟨C, e3, _⟩ := hbuild L hL (by omega)
      simp [e3]
  · obtain ⟨m, L, e2, hnc⟩ := medoid_terminates hrect hord hk _ _ hL0 rfl
    have hL : LoopInv k data (MedoidInv data k) (medoidDist data) L := by
      obtain ⟨L', e3, hL'⟩ := centreRun_inv hinv hk m hL0
      rw [e2] at e3; cases e3; exact hL'
    obtain ⟨C, e3, h3, h4⟩ := hbuild L hL hnc
    refine ⟨m, C, ?_, h3, h4⟩
    intro m' hm'
    unfold kMedoid
    simp only [e, Option.bind_some, centreRun_stays _ _ _ m _ L e2 hnc m' hm']
    rw [if_neg (by omega), e3]; rfl

example : ∃ data : List (List Int), RowsOfLength 2 data ∧ 2 ≤ data.dedup.length ∧ ¬ data.Nodup ∧ ∃ picks : List Nat, picks.Perm (List.range data.length) ∧
    (kMedoid List.reverse picks 2 data 12).isSome ∧ kMedoid List.reverse picks 2 data 12 ≠ some none := by
  refine ⟨[[0, 0], [0, 0], [3, 3], [3, 2]], by unfold RowsOfLength; decide, by decide, by decide, [1, 0, 3, 2], by decide, by decide, ?_⟩
  intro h
  have h2 := congrArg (fun x => x.map Option.isSome) h
  revert h2; decide

/-- If there are data but fewer than `k` different rows, KMedoid panics. -/
theorem C80_too_few_rows (W k : Nat) (data : List (List Int)) (picks : List Nat) (ord : List Nat → List Nat) (hrect : RowsOfLength W data)
    (hord : ∀ l, (ord l).Perm l) (hp : picks.Perm (List.range data.length)) (hn : data ≠ []) (hd : data.dedup.length < k) (m : Nat) :
    kMedoid ord picks k data (m + 1) = none := by
  obtain ⟨st, chk, e, h1, h2⟩ := medoidInit_full (k := k) hrect hord hp
  rw [min_eq_right (by omega)] at h2
  have hlen : 0 < data.length := List.length_pos_iff.2 hn
  unfold kMedoid
  simp only [e, Option.bind_some]
  unfold centreRun
  rw [if_pos (by exact hlen)]
  have hrow : data[0]? = some data[0] := List.getElem?_eq_getElem hlen
  have hinv := medoidCentreInv (k := st.means.length) (ord := ord) hrect hord
  have hnear : nearestCentre (medoidOps ord data) k ⟨st, chk, 0, 0⟩ data[0] = none := by
    unfold nearestCentre
    have hsplit : List.range k = List.range st.means.length ++ (st.means.length :: (List.range (k - st.means.length - 1)).map fun j => st.means.length + (j + 1)) := by
      have e1 : k = st.means.length + ((k - st.means.length - 1) + 1) := by omega
      conv_lhs => rw [e1, List.range_add, List.range_succ_eq_map]
      simp [List.map_map, Function.comp_def]
    have key : ∀ s : Int × Option Nat, (∀ w, s.2 = some w → w < st.means.length ∧ s.1 = medoidDist data st w data[0]) →
        (List.range k).foldlM (fun (s : Int × Option Nat) j =>
          if some j ≠ s.2 then ((medoidOps ord data).dist st j data[0]).map fun t => if t < s.1 then (t, some j) else s else some s) s = none := by
      intro s hs
      rw [hsplit, List.foldlM_append]
      obtain ⟨s', e', h3, _, _, h6⟩ := nearest_fold (fun j => (medoidOps ord data).dist st j data[0]) (fun j => medoidDist data st j data[0])
        (List.range st.means.length) s (fun j hj => (hinv.dist h1 (List.mem_range.1 hj) (List.getElem_mem hlen)).1) (fun w hw => (hs w hw).2)
      rw [e']
      simp only [Option.bind_eq_bind, Option.bind_some, List.foldlM_cons]
      have hne : some st.means.length ≠ s'.2 := by
        intro h
        rcases h6 with rfl | ⟨w, hw, hw2, _⟩
        · have := (hs _ h.symm).1; omega
        · rw [hw2] at h
          have := List.mem_range.1 hw
          have := Option.some.inj h
          omega
      rw [if_pos hne]
      have hnone : (medoidOps ord data).dist st st.means.length data[0] = none := by
        simp [medoidOps, List.getElem?_eq_none (show st.clusters.length ≤ st.means.length by rw [h1.clen])]
      rw [hnone]; rfl
    cases hc : chk.getD 0 none with
    | none =>
      simp only [Option.bind_some]
      rw [key _ (by intro w hw; cases hw)]; rfl
    | some v =>
      have hv := h1.bound 0 v hc
      simp only [(hinv.dist h1 hv (List.getElem_mem hlen)).1, Option.map_some, Option.bind_some]
      rw [key _ (by intro w hw; have := Option.some.inj hw; subst this; exact ⟨hv, rfl⟩)]; rfl
  unfold centreStep
  simp only [hrow, Option.bind_some, hnear, Option.bind_none]

example : ∃ data : List (List Int), RowsOfLength 2 data ∧ data ≠ [] ∧ data.dedup.length < 2 ∧ 2 ≤ data.length :=
  ⟨[[1, 1], [1, 1]], by unfold RowsOfLength; decide, by decide, by decide, by decide⟩

/-- `m` is a medoid of the cluster `G`: one of its rows with the least total distance to its rows. -/
def IsMedoidOf (data : List (List Int)) (G : Nat → Option (List Int)) (m : Nat) : Prop :=
  G m ≠ none ∧ ∀ m' < data.length, G m' ≠ none →
    ((List.range data.length).map fun j => if G j = none then 0 else rowDiff (data.getD m []) (data.getD j [])).sum ≤
    ((List.range data.length).map fun j => if G j = none then 0 else rowDiff (data.getD m' []) (data.getD j [])).sum

instance (data : List (List Int)) (G : Nat → Option (List Int)) (m : Nat) : Decidable (IsMedoidOf data G m) := by unfold IsMedoidOf; infer_instance

/-- Six rows for which KMedoid ends with clusters whose true medoids it never looked at. -/
def medoidData : List (List Int) := [[0, 1, 1], [0, 0, 1], [0, 0, 0], [0, 1, 1], [0, 0, 1], [1, 0, 1]]

/-- Whether the result has row 1 in cluster 1, though the medoids of cluster 0 are nearer to it than those of cluster 1. -/
def medoidCheck : Option (Option (List (Nat → Option (List Int)))) → Bool
  | some (some [G, H]) => (H 1).isSome && (List.range 6).all fun a => (List.range 6).all fun b =>
      decide (IsMedoidOf medoidData G a → IsMedoidOf medoidData H b →
        rowDiff (medoidData.getD a []) (medoidData.getD 1 []) < rowDiff (medoidData.getD b []) (medoidData.getD 1 []))
  | _ => false

theorem medoidCheck_true : medoidCheck (kMedoid id [2, 1, 3, 5, 0, 4] 2 medoidData 12) = true := by decide +kernel

/-- The medoids of C80 need not minimise the total distance within their clusters: a row can end up in one cluster although all true medoids of the other
cluster are nearer to it. -/
theorem C80_not_true_medoids : ∃ (data : List (List Int)) (picks : List Nat) (G H : Nat → Option (List Int)) (i m : Nat), RowsOfLength 3 data ∧
    picks.Perm (List.range data.length) ∧ kMedoid id picks 2 data m = some (some [G, H]) ∧ H i ≠ none ∧
    ∀ a < data.length, ∀ b < data.length, IsMedoidOf data G a → IsMedoidOf data H b →
      rowDiff (data.getD a []) (data.getD i []) < rowDiff (data.getD b []) (data.getD i []) := by
  have h := medoidCheck_true
  cases hr : kMedoid id [2, 1, 3, 5, 0, 4] 2 medoidData 12 with
  | none => rw [hr] at h; cases h
  | some r =>
    cases r with
    | none => rw [hr] at h; cases h
    | some C =>
      rw [hr] at h
      match C, h with
      | [G, H], h =>
        simp only [medoidCheck, Bool.and_eq_true, List.all_eq_true, List.mem_range, decide_eq_true_eq] at h
        exact ⟨medoidData, _, G, H, 1, 12, by unfold RowsOfLength; decide, by decide, hr, by intro h0; rw [h0] at h; exact absurd h.1 (by simp), h.2⟩

end Gospn
