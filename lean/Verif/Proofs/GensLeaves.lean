/-
Lemmas about the leaves of networks that structure learning returns.
-/
import Verif.Props.Gens
import Verif.Props.Dbscan
import Verif.Spec.GensLeaves

set_option linter.unusedSectionVars false
set_option linter.unusedSimpArgs false

namespace Gospn
open GoFloat Spec
variable {ι : Type} [Fintype ι]

theorem column_get (v : Int) (D : List VarSet) : (D.map fun I => I.get v) = column v D := rfl

/-- Clustering keeps the instances. -/
theorem clustered_perm {k : Int} {eps : XR} {mp : Int} {D : List VarSet} {C : List (List VarSet)} (h : Clustered k eps mp D C) (hs : SameVars D) : C.flatten.Perm D := by
  obtain ⟨hpos, _⟩ := clustered_lengths h
  have hne : D ≠ [] := by rintro rfl; simp at hpos
  have hr : ∀ x ∈ D, ∀ c v, x c = some v → toInt (ofInt v : XR) = v := by intro x _ c v _; simp [XR.toInt]
  obtain ⟨ord, ho, h⟩ := h
  have ho : OrdersOf ord D := ho
  split at h
  · rename_i hk
    obtain ⟨_, assign, ha, hC⟩ := h
    obtain ⟨n, rfl⟩ := Int.eq_ofNat_of_zero_le (show 0 ≤ k by omega)
    unfold kMeansDataI at hC
    obtain ⟨⟨M, Sc⟩, hm, hC⟩ := Option.bind_eq_some_iff.1 hC
    obtain ⟨G, hG, hC⟩ := Option.bind_eq_some_iff.1 hC
    have hlen := (dataToMatrix_length hm).1
    obtain ⟨M', Sc', C', e1, e2, _, _, e5⟩ := C39_groups (F := XR) (k := n) (G := G) hne ho hs hr ((ha _ _ hG).trans hlen) (guessToData_bounds hC)
    rw [hm] at e1
    simp only [Option.some.injEq, Prod.mk.injEq] at e1
    obtain ⟨rfl, rfl⟩ := e1
    have : C = C' := by
      have := hC.symm.trans e2
      simpa using this
    exact this ▸ e5
  · obtain ⟨_, _, _, _, _, _, e, _⟩ := C38_returned_partial hne ho hs hr eps mp h
    exact e

theorem sameVars_cluster {D : List VarSet} {C : List (List VarSet)} (h : C.flatten.Perm D) (hs : SameVars D) {d : List VarSet} (hd : d ∈ C) : SameVars d := by
  intro x hx y hy
  exact hs x (h.mem_iff.1 (List.mem_flatten.2 ⟨d, hd, hx⟩)) y (h.mem_iff.1 (List.mem_flatten.2 ⟨d, hd, hy⟩))

theorem subInstance (I : VarSet) (s : List Int) (m : VarSet) (k : Int) :
    s.foldl (fun m k => m.set k (I.get k)) m k = if k ∈ s then some (I.get k) else m k := by
  induction s generalizing m with
  | nil => simp
  | cons a s ih =>
    rw [List.foldl_cons, ih]
    by_cases h1 : k ∈ s
    · simp [h1]
    · by_cases h2 : k = a
      · subst h2; simp [h1, VarSet.set]
      · simp [h1, h2, VarSet.set]

theorem sameVars_sub (D : List VarSet) (s : List Int) : SameVars (subData D s) := by
  intro x hx y hy k
  obtain ⟨I, _, rfl⟩ := List.mem_map.1 hx
  obtain ⟨J, _, rfl⟩ := List.mem_map.1 hy
  rw [subInstance, subInstance]
  split <;> simp [VarSet.empty]

theorem column_sub (D : List VarSet) {s : List Int} {v : Int} (h : v ∈ s) : column v (subData D s) = column v D := by
  unfold column subData
  rw [List.map_map]
  apply List.map_congr_left
  intro I _
  simp only [Function.comp]
  rw [subInstance, if_pos h]
  rfl

theorem length_sub (D : List VarSet) (s : List Int) : (subData D s).length = D.length := by simp [subData]

theorem column_flatten (v : Int) (C : List (List VarSet)) : column v C.flatten = (C.map (column v)).flatten := by
  unfold column
  rw [List.map_flatten]

theorem column_length (v : Int) (D : List VarSet) : (column v D).length = D.length := by simp [column]

/-! ### Counting -/

/-- The counts are those of the values in the data. -/
theorem countValues_counts {v : Variable} {D : List VarSet} {counts : List Int} (h : countValues v D = some counts) :
    counts = (List.range v.categories.toNat).map (fun (i : Nat) => (((column v.varid D).count (i : Int) : Nat) : Int)) ∧ counts.sum = D.length := by
  unfold countValues at h
  split at h
  · cases h
  · have gen : ∀ (D : List VarSet) (b : List Int) (b' : List Int),
        D.foldlM (fun counts I => (goIdx counts (I.get v.varid)).bind fun c => goSet counts (I.get v.varid) (c + 1)) b = some b' →
        b'.length = b.length ∧ b'.sum = b.sum + D.length ∧ ∀ (i : Nat) x, b[i]? = some x → b'[i]? = some (x + ((column v.varid D).count (i : Int) : Nat)) := by
      intro D
      induction D with
      | nil => intro b b' h; simp only [List.foldlM_nil, pure, Option.some.injEq] at h; subst h; simp [column]
      | cons I D ih =>
        intro b b' h
        rw [List.foldlM_cons] at h
        simp only [bind] at h
        obtain ⟨b1, h1, h2⟩ := Option.bind_eq_some_iff.1 h
        obtain ⟨c, hc, hs⟩ := Option.bind_eq_some_iff.1 h1
        obtain ⟨e1, e2, e3⟩ := ih b1 b' h2
        unfold goIdx at hc
        split at hc
        · cases hc
        rename_i h0
        unfold goSet at hs
        split at hs
        swap
        · cases hs
        cases hs
        obtain ⟨hlt, hget⟩ := List.getElem?_eq_some_iff.1 hc
        refine ⟨by simpa using e1, ?_, ?_⟩
        · have hsum : (b.set (I.get v.varid).toNat (c + 1)).sum = b.sum + 1 := by
            rw [List.sum_set']
            simp [hlt, hget]
          rw [e2, hsum, List.length_cons]; push_cast; ring
        · intro i x hx
          by_cases hi : i = (I.get v.varid).toNat
          · subst hi
            have : x = c := by rw [hc] at hx; exact (Option.some.inj hx).symm
            subst this
            rw [e3 _ (x + 1) (by rw [List.getElem?_set]; simp [hlt])]
            have : column v.varid (I :: D) = I.get v.varid :: column v.varid D := rfl
            rw [this, List.count_cons, if_pos (by simp; omega)]
            push_cast
            congr 1
            ring
          · rw [e3 i x (by rw [List.getElem?_set, if_neg (by omega)]; exact hx)]
            have : column v.varid (I :: D) = I.get v.varid :: column v.varid D := rfl
            rw [this, List.count_cons, if_neg (by simp; omega)]
            simp
    obtain ⟨e1, e2, e3⟩ := gen D _ counts h
    refine ⟨?_, by simpa using e2⟩
    apply List.ext_getElem?
    intro i
    by_cases hi : i < v.categories.toNat
    · rw [e3 i 0 (by simp [hi])]
      simp [hi]
    · rw [List.getElem?_eq_none (by rw [e1]; simpa using hi), List.getElem?_eq_none (by simpa using hi)]

/-- The leaf made by `newMultinom`. -/
theorem multinom_kind {N : Net ι XR} {v : Variable} {D : List VarSet} {u : ι} (hpos : 0 < v.categories) (h : IsMultinom N v D u) :
    ∃ sc k m, N.kind u = .leaf (.multinomial sc v.varid ((List.range v.categories.toNat).map fun (i : Nat) => XR.fin (smoothFreq v.categories (column v.varid D) i)) k m) := by
  obtain ⟨rand, counts, l, hr, hc, hl, hu⟩ := h
  obtain ⟨hlen, hnn⟩ := countValues_spec hc
  obtain ⟨hcnt, hsum⟩ := countValues_counts hc
  have hne : counts ≠ [] := by rintro rfl; simp at hlen; omega
  obtain ⟨l', q, hl', hq, ht, _, _⟩ := C51_counting rand hr v.varid counts hnn hne
  rw [hl] at hl'
  cases hl'
  obtain ⟨sc, k, m, rfl, _, _⟩ := ht
  refine ⟨sc, k, XR.fin m, hu.trans ?_⟩
  have hcl : (counts.length : ℝ) = (v.categories : ℝ) := by exact_mod_cast congrArg (Int.cast (R := ℝ)) hlen
  rw [hsum, hcl] at hq
  congr 2
  rw [hq, List.map_map, hcnt, List.map_map]
  apply List.map_congr_left
  intro i _
  simp only [Function.comp]
  unfold smoothFreq
  rw [column_length]
  push_cast
  rfl

theorem smoothFreq_pos {c : Int} (hc : 0 < c) (g : List Int) (x : Int) : 0 < smoothFreq c g x := by
  unfold smoothFreq
  have : (0 : ℝ) < c := by exact_mod_cast hc
  positivity

theorem gens_prob_leaf {N : Net ι XR} (hac : Acyclic N.ch) {u : ι} {l : Leaf XR} (h : N.kind u = .leaf l) (I : VarSet) : N.prob I u = ((l.value I).map unlog).getD 0 := by
  unfold Net.prob
  rw [Net.value_unfold hac]
  simp [Net.valueStep, h]

theorem multinom_prob {N : Net ι XR} (hac : Acyclic N.ch) {v : Variable} {D : List VarSet} {u : ι} (hpos : 0 < v.categories) (h : IsMultinom N v D u) (I : VarSet) :
    (∀ x, I v.varid = some x → 0 ≤ x → x < v.categories → N.prob I u = smoothFreq v.categories (column v.varid D) x) ∧ (I v.varid = none → N.prob I u = 1) := by
  obtain ⟨sc, k, m, hk⟩ := multinom_kind hpos h
  rw [gens_prob_leaf hac hk]
  refine ⟨fun x hx h0 h1 => ?_, fun hx => ?_⟩
  · obtain ⟨n, rfl⟩ := Int.eq_ofNat_of_zero_le h0
    have hn : n < v.categories.toNat := by omega
    simp only [Leaf.value, hx]
    rw [goIdx_nat, List.getElem?_map, List.getElem?_range hn]
    simp only [Option.map_some, Option.getD_some, XR.g_log]
    have hp := smoothFreq_pos hpos (column v.varid D) n
    exact (log_nonneg_spec hp.le).2
  · simp [Leaf.value, hx]

/-! ### Sums -/

/-- The value of a sum over clusters. -/
theorem cluster_prob {N : Net ι XR} {u : ι} {I : VarSet} {D : List VarSet} {C : List (List VarSet)} {cs : List ι} {ps : List (ι × XR)} (hD : 0 < D.length)
    (hlen : cs.length = C.length) (hp : ps.Perm (cs.zip (C.map fun d => div (ofInt (d.length : Int)) (ofInt (D.length : Int)))))
    (hsum : ∀ r : List ℝ, ps.map Prod.snd = r.map XR.fin → N.prob I u = wsum r ((ps.map Prod.fst).map (N.prob I))) :
    N.prob I u = ((cs.zip C).map fun p => (p.2.length : ℝ) / D.length * N.prob I p.1).sum := by
  have hn : ((D.length : Int) : ℝ) ≠ 0 := by
    have : D.length ≠ 0 := by omega
    exact_mod_cast this
  have hz : cs.zip (C.map fun d => (div (ofInt (d.length : Int)) (ofInt (D.length : Int)) : XR)) = (cs.zip C).map fun p => (p.1, XR.fin ((p.2.length : ℝ) / D.length)) := by
    rw [List.zip_map_right]
    apply List.map_congr_left
    rintro ⟨c, d⟩ _
    simp only [Prod.map, id, XR.g_ofInt, XR.g_div, XR.div_fin hn]
    simp
  rw [hz] at hp
  have gen : ∀ (ps : List (ι × XR)) (L : List (ι × ℝ)), ps.Perm (L.map fun p => (p.1, XR.fin p.2)) → ∃ L' : List (ι × ℝ), ps = L'.map (fun p => (p.1, XR.fin p.2)) ∧ L'.Perm L := by
    intro ps L h
    have hinj : Function.Injective (fun p : ι × ℝ => (p.1, XR.fin p.2)) := by
      rintro ⟨a, b⟩ ⟨c, d⟩ h
      simp only [Prod.mk.injEq, XR.fin.injEq] at h
      rw [h.1, h.2]
    obtain ⟨L', rfl⟩ : ∃ L' : List (ι × ℝ), L'.map (fun p => (p.1, XR.fin p.2)) = ps := by
      have : ∀ x ∈ ps, x ∈ Set.range (fun p : ι × ℝ => (p.1, XR.fin p.2)) := by
        intro x hx
        obtain ⟨y, _, rfl⟩ := List.mem_map.1 (h.mem_iff.1 hx)
        exact ⟨y, rfl⟩
      clear h
      induction ps with
      | nil => exact ⟨[], rfl⟩
      | cons a ps ih =>
        obtain ⟨b, rfl⟩ := this a (by simp)
        obtain ⟨L', rfl⟩ := ih fun x hx => this x (by simp [hx])
        exact ⟨b :: L', rfl⟩
    exact ⟨L', rfl, (List.map_perm_map_iff hinj).1 h⟩
  obtain ⟨L', rfl, hL⟩ := gen ps ((cs.zip C).map fun p => (p.1, (p.2.length : ℝ) / D.length)) (by rw [List.map_map]; exact hp)
  rw [hsum (L'.map Prod.snd) (by simp [Function.comp_def])]
  have : wsum (L'.map Prod.snd) (((L'.map fun p => (p.1, XR.fin p.2)).map Prod.fst).map (N.prob I)) = (L'.map fun p => p.2 * N.prob I p.1).sum := by
    rw [List.map_map, List.map_map]
    clear hL hp hsum
    induction L' with
    | nil => simp
    | cons a L' ih => simp only [List.map_cons, wsum_cons, List.sum_cons]; rw [ih]; simp
  rw [this, (hL.map _).sum_eq, List.map_map]
  rfl

end Gospn
