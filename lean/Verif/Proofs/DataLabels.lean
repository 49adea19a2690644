/-
Lemmas for `PartitionByLabels` (Model/Data.lean): every step appends a job, and the counters are the numbers of jobs per label.
-/
import Verif.Proofs.DataParts
import Verif.Props.Data

set_option linter.unusedSectionVars false
set_option linter.unusedSimpArgs false

namespace Gospn
open Spec

theorem filter_flatMap_perm {α : Type} (key : α → Nat) (n : Nat) : ∀ (l : List α), (∀ a ∈ l, key a < n) →
    ((List.range n).flatMap fun g => l.filter fun a => key a = g).Perm l := by
  intro l
  induction l with
  | nil => intro _; simp
  | cons a l ih =>
    intro h
    have h1 : ((List.range n).flatMap fun g => (a :: l).filter fun a => key a = g)
        = (List.range n).flatMap fun g => (if key a = g then [a] else []) ++ l.filter fun a => key a = g := by
      congr 1
      funext g
      by_cases hg : key a = g <;> simp [hg]
    rw [h1]
    refine (flatMap_append_perm' _ _ _).trans ?_
    rw [flatMap_single _ _ _ (h a (by simp))]
    exact List.Perm.cons _ (ih fun b hb => h b (by simp [hb]))

/-- Indices of the instances with label `j`. -/
def cls (L : List Int) (j : Nat) : List Nat := (List.range L.length).filter fun u => labAt L u = (j : Int)

theorem classIndices_spec (D : List Addr) (L : List Int) (c : Nat) (hL : L.length = D.length) (hc : ∀ l ∈ L, 0 ≤ l ∧ l < c) :
    classIndices D L c = some ((List.range c).map fun j => (cls L j).map fun (u : Nat) => (u : Int)) := by
  have : ∀ n ≤ L.length, (List.range n).foldlM (fun C (i : Nat) => (goIdx L (i : Int)).bind fun l => goPush C l (i : Int)) (List.replicate c ([] : List Int))
      = some ((List.range c).map fun (j : Nat) => ((List.range n).filter fun u => labAt L u = (j : Int)).map fun (u : Nat) => (u : Int)) := by
    intro n
    induction n with
    | zero => intro _; simp
    | succ n ih =>
      intro hn
      have hn' : n < L.length := by omega
      rw [List.range_succ, List.foldlM_append, ih (by omega)]
      simp only [bind, Option.bind_some, List.foldlM_cons, List.foldlM_nil, goIdx_nat, List.getElem?_eq_getElem hn']
      obtain ⟨h0, h1⟩ := hc L[n] (List.getElem_mem hn')
      obtain ⟨l, hl⟩ := Int.eq_ofNat_of_zero_le h0
      have hl' : L[n] = (l : Int) := hl
      rw [hl', goPush_range c _ l _ (by omega)]
      have hlab : labAt L n = (l : Int) := by simp [labAt, hn', hl']
      simp only [Option.bind_some, pure]
      congr 1
      apply List.map_congr_left
      intro j _
      rw [List.filter_append, List.map_append]
      congr 1
      by_cases hj : l = j
      · subst hj; simp [hlab]
      · have : ¬ ((l : Int) = (j : Int)) := by omega
        simp [hlab, this, hj]
  unfold classIndices goFor
  rw [Int.toNat_natCast, ← hL]
  exact this L.length (le_refl _)

/-- Number of jobs with label `j`. -/
def lcount (J : List Job) (j : Nat) : Nat := J.countP fun t => t.2.2 = (j : Int)

/-- Number of jobs for part `i`. -/
def gcount (J : List Job) (i : Nat) : Nat := J.countP fun t => t.1 = i

/-- Number of jobs for part `i` with label `j`. -/
def glcount (J : List Job) (i j : Nat) : Nat := J.countP fun t => t.1 = i ∧ t.2.2 = (j : Int)

structure PInv (ord : MapOrder) (h : Mem) (D : List Addr) (m c : Nat) (J : List Job) (st : Groups) (K : List Int) : Prop where
  run : runJobs ord D J ⟨h, List.replicate m [], List.replicate m []⟩ = some st
  cnt : K = (List.range c).map fun j => (lcount J j : Int)
  valid : ∀ t ∈ J, t.1 < m ∧ t.2.1 < D.length
  labs : ∀ t ∈ J, ∃ j, j < c ∧ t.2.2 = ((j : Nat) : Int)

variable {ord : MapOrder} {h : Mem} {D : List Addr} {xs : List VarSet} {m c : Nat}

theorem PInv.part {J : List Job} {st : Groups} {K : List Int} (hI : PInv ord h D m c J st K) (hh : Holds h D xs) (ho : OrdersOf ord xs) {i : Nat} (hi : i < m) :
    ∃ part, st.data[i]? = some part ∧ part.length = gcount J i := by
  obtain ⟨st', h1, h2, _, _⟩ := runJobs_groups (n := m) ho hh J hI.valid
  rw [hI.run] at h1
  cases h1
  have hlen := h2.length_eq
  simp only [jobsOut, List.length_map, List.length_range] at hlen
  have hi' : i < st.data.length := by omega
  refine ⟨st.data[i], by simp [hi'], ?_⟩
  rw [List.forall₂_iff_get] at h2
  have := Holds.length (h2.2 i hi' (by simp [jobsOut, hi]))
  simp only [List.get_eq_getElem, jobsOut, List.getElem_map, List.getElem_range, List.length_map] at this
  rw [this, gcount, List.countP_eq_length_filter]

theorem PInv.step {J : List Job} {st : Groups} {K : List Int} (hI : PInv ord h D m c J st K) (hh : Holds h D xs) (ho : OrdersOf ord xs) {i u j : Nat} (hi : i < m)
    (hu : u < D.length) (hj : j < c) :
    ∃ st' K', place ord D st i u j = some st' ∧ goSet K j ((lcount J j : Int) + 1) = some K' ∧ PInv ord h D m c (J ++ [(i, u, (j : Int))]) st' K' := by
  have hv : ∀ t ∈ J ++ [((i, u, (j : Int)) : Job)], t.1 < m ∧ t.2.1 < D.length := by
    intro t ht
    rcases List.mem_append.1 ht with ht | ht
    · exact hI.valid t ht
    · simp at ht; subst ht; exact ⟨hi, hu⟩
  obtain ⟨st', h1, _⟩ := runJobs_groups (n := m) ho hh _ hv
  refine ⟨st', _, ?_, ?_, h1, rfl, hv, ?_⟩
  · have h2 := h1
    unfold runJobs at h2
    rw [List.foldlM_append] at h2
    have h3 := hI.run
    unfold runJobs at h3
    rw [h3] at h2
    simpa using h2
  · rw [hI.cnt, goSet_nat _ _ _ (by simpa using hj), range_map_set]
    congr 1
    apply List.map_congr_left
    intro x _
    simp only [lcount, List.countP_append, List.countP_cons, List.countP_nil]
    by_cases hx : x = j
    · subst hx; simp
    · have : ¬ ((j : Int) = (x : Int)) := by omega
      simp [hx, this]
  · intro t ht
    rcases List.mem_append.1 ht with ht | ht
    · exact hI.labs t ht
    · simp at ht; subst ht; exact ⟨j, hj, rfl⟩

theorem PInv.counter {J : List Job} {st : Groups} {K : List Int} (hI : PInv ord h D m c J st K) {j : Nat} (hj : j < c) : goIdx K (j : Int) = some (lcount J j : Int) := by
  rw [hI.cnt, goIdx_nat, List.getElem?_map, List.getElem?_range hj]
  rfl

/-- The sources of the jobs with label `j` are the instances of class `j` in the order of the permutation. -/
def Sourced (L : List Int) (perm : Nat → List Nat) (c : Nat) (J : List Job) : Prop :=
  ∀ j < c, (J.filter fun t => t.2.2 = (j : Int)).map (fun t => t.2.1) = ((perm j).map fun l => ((cls L j)[l]?).getD 0).take (lcount J j)

theorem cls_lt {L : List Int} {j u : Nat} (h : u ∈ cls L j) : u < L.length ∧ labAt L u = j := by
  simpa [cls] using h

theorem takeClass_spec {L : List Int} {perm : Nat → List Nat} (hh : Holds h D xs) (ho : OrdersOf ord xs) (hL : L.length = D.length)
    (hperm : ∀ j < c, (perm j).Perm (List.range (cls L j).length)) {i j : Nat} (s : Int) (hi : i < m) (hj : j < c) : ∀ (z : Nat) (J : List Job) (st : Groups) (K : List Int),
    PInv ord h D m c J st K → Sourced L perm c J → lcount J j + z ≤ (cls L j).length → (gcount J i : Int) + z ≤ s →
    ∃ T st' K', takeClass ord D ((List.range c).map fun j => (cls L j).map fun (u : Nat) => (u : Int)) ((List.range c).map perm) i s j z (st, K) = some (st', K') ∧
      PInv ord h D m c (J ++ T) st' K' ∧ Sourced L perm c (J ++ T) ∧ T.length = z ∧ ∀ t ∈ T, t.1 = i ∧ t.2.2 = (j : Int) := by
  intro z
  induction z with
  | zero =>
    intro J st K hI hS _ _
    exact ⟨[], st, K, by simp [takeClass, goFor], by simpa using hI, by simpa using hS, rfl, by simp⟩
  | succ z ih =>
    intro J st K hI hS hN hs
    obtain ⟨T, st1, K1, h1, h2, h3, h4, h5⟩ := ih J st K hI hS (by omega) (by push_cast at hs; omega)
    have hcT : lcount (J ++ T) j = lcount J j + z := by
      simp only [lcount, List.countP_append]
      congr 1
      rw [← h4, List.countP_eq_length]
      intro t ht; simp [(h5 t ht).2]
    have hgT : gcount (J ++ T) i = gcount J i + z := by
      simp only [gcount, List.countP_append]
      congr 1
      rw [← h4, List.countP_eq_length]
      intro t ht; simp [(h5 t ht).1]
    have hk : lcount (J ++ T) j < (perm j).length := by
      rw [(hperm j hj).length_eq, List.length_range]; omega
    have hl : (perm j)[lcount (J ++ T) j] < (cls L j).length := List.mem_range.1 ((hperm j hj).mem_iff.1 (List.getElem_mem hk))
    have hu := cls_lt (List.getElem_mem hl)
    obtain ⟨part, hp1, hp2⟩ := PInv.part h2 hh ho hi
    obtain ⟨st', K', g1, g2, g3⟩ := PInv.step h2 hh ho (u := (cls L j)[(perm j)[lcount (J ++ T) j]]) hi (by omega) hj
    refine ⟨T ++ [(i, (cls L j)[(perm j)[lcount (J ++ T) j]], (j : Int))], st', K', ?_, by rw [← List.append_assoc]; exact g3, ?_, by simp [h4], ?_⟩
    · have h1' := h1
      unfold takeClass goFor at h1' ⊢
      simp only [Int.toNat_natCast] at h1' ⊢
      rw [List.range_succ, List.foldlM_append, h1']
      simp only [bind, Option.bind_some, List.foldlM_cons, List.foldlM_nil]
      rw [PInv.counter h2 hj]
      simp only [Option.bind_some, goIdx_nat, List.getElem?_map, List.getElem?_range hj, Option.map_some, List.getElem?_eq_getElem hk, List.getElem?_eq_getElem hl, hp1]
      rw [if_pos (by rw [hp2, hgT]; push_cast at hs ⊢; omega), g1]
      simp only [Option.bind_some, g2, Option.map_some]
      rfl
    · intro j' hj'
      rw [← List.append_assoc, List.filter_append, List.map_append, h3 j' hj']
      by_cases hjj : j' = j
      · subst hjj
        have e : lcount (J ++ T ++ [((i, (cls L j')[(perm j')[lcount (J ++ T) j']], (j' : Int)) : Job)]) j' = lcount (J ++ T) j' + 1 := by
          simp [lcount, List.countP_append, Nat.add_assoc]
        rw [e, List.take_add_one]
        congr 1
        simp [hk, hl]
      · have hne : ¬ ((j : Int) = (j' : Int)) := by omega
        have e : lcount (J ++ T ++ [((i, (cls L j)[(perm j)[lcount (J ++ T) j]], (j : Int)) : Job)]) j' = lcount (J ++ T) j' := by
          simp [lcount, List.countP_append, hne]
        rw [e]
        simp [hne]
    · intro t ht
      rcases List.mem_append.1 ht with ht | ht
      · exact h5 t ht
      · simp at ht; subst ht; exact ⟨rfl, rfl⟩

theorem takeClasses_spec {L : List Int} {perm : Nat → List Nat} (hh : Holds h D xs) (ho : OrdersOf ord xs) (hL : L.length = D.length)
    (hperm : ∀ j < c, (perm j).Perm (List.range (cls L j).length)) {i : Nat} (s : Int) (hi : i < m) : ∀ (zs : List Nat) (j0 : Nat) (J : List Job) (st : Groups) (K : List Int),
    PInv ord h D m c J st K → Sourced L perm c J → j0 + zs.length ≤ c → (∀ j, j0 ≤ j → lcount J j + (zs[j - j0]?).getD 0 ≤ (cls L j).length) → (gcount J i : Int) + zs.sum ≤ s →
    ∃ T st' K', ((zs.map fun (z : Nat) => (z : Int)).zipIdx j0).foldlM (fun st (z : Int × Nat) => takeClass ord D ((List.range c).map fun j => (cls L j).map fun (u : Nat) => (u : Int))
        ((List.range c).map perm) i s z.2 z.1 st) (st, K) = some (st', K') ∧
      PInv ord h D m c (J ++ T) st' K' ∧ Sourced L perm c (J ++ T) ∧ (∀ t ∈ T, t.1 = i) ∧ ∀ j, lcount T j = if j0 ≤ j then (zs[j - j0]?).getD 0 else 0 := by
  intro zs
  induction zs with
  | nil =>
    intro j0 J st K hI hS _ _ _
    exact ⟨[], st, K, rfl, by simpa using hI, by simpa using hS, by simp, by simp [lcount]⟩
  | cons z zs ih =>
    intro j0 J st K hI hS hlen hN hs
    simp only [List.length_cons] at hlen
    have hN0 := hN j0 (le_refl _)
    simp only [Nat.sub_self, List.getElem?_cons_zero, Option.getD_some] at hN0
    simp only [List.sum_cons] at hs
    obtain ⟨T1, st1, K1, h1, h2, h3, h4, h5⟩ := takeClass_spec hh ho hL hperm s hi (show j0 < c by omega) z J st K hI hS hN0 (by omega)
    have hl1 : ∀ j, lcount T1 j = if j = j0 then z else 0 := by
      intro j
      by_cases hj : j = j0
      · subst hj
        rw [if_pos rfl, ← h4, lcount, List.countP_eq_length]
        intro t ht; simp [(h5 t ht).2]
      · rw [if_neg hj, lcount, List.countP_eq_zero]
        intro t ht
        have := (h5 t ht).2
        simp [this]; omega
    have hg1 : gcount T1 i = z := by
      rw [← h4, gcount, List.countP_eq_length]
      intro t ht; simp [(h5 t ht).1]
    obtain ⟨T2, st2, K2, g1, g2, g3, g4, g5⟩ := ih (j0 + 1) (J ++ T1) st1 K1 h2 h3 (by omega) (by
        intro j hj
        have := hN j (by omega)
        rw [show j - j0 = (j - (j0 + 1)) + 1 by omega, List.getElem?_cons_succ] at this
        have e : lcount (J ++ T1) j = lcount J j := by
          have := hl1 j
          rw [if_neg (by omega)] at this
          simp only [lcount, List.countP_append] at this ⊢
          omega
        rw [e]; exact this) (by
        have : gcount (J ++ T1) i = gcount J i + z := by simp only [gcount, List.countP_append]; rw [← hg1]; rfl
        rw [this]; omega)
    refine ⟨T1 ++ T2, st2, K2, ?_, by rw [← List.append_assoc]; exact g2, by rw [← List.append_assoc]; exact g3, ?_, ?_⟩
    · simp only [List.map_cons, List.zipIdx_cons, List.foldlM_cons]
      rw [h1]
      exact g1
    · intro t ht
      rcases List.mem_append.1 ht with ht | ht
      · exact (h5 t ht).1
      · exact g4 t ht
    · intro j
      have e : lcount (T1 ++ T2) j = lcount T1 j + lcount T2 j := by simp [lcount, List.countP_append]
      rw [e, hl1, g5]
      by_cases hj : j = j0
      · subst hj; simp
      · by_cases hj2 : j0 ≤ j
        · have : j0 + 1 ≤ j := by omega
          rw [if_neg hj, if_pos this, if_pos hj2, show j - j0 = (j - (j0 + 1)) + 1 by omega, List.getElem?_cons_succ, zero_add]
        · have : ¬ j0 + 1 ≤ j := by omega
          rw [if_neg hj, if_neg this, if_neg hj2]

theorem lcount_append (J T : List Job) (j : Nat) : lcount (J ++ T) j = lcount J j + lcount T j := by simp [lcount, List.countP_append]
theorem gcount_append (J T : List Job) (j : Nat) : gcount (J ++ T) j = gcount J j + gcount T j := by simp [gcount, List.countP_append]
theorem glcount_append (J T : List Job) (i j : Nat) : glcount (J ++ T) i j = glcount J i j + glcount T i j := by simp [glcount, List.countP_append]

theorem takeParts_spec {L : List Int} {perm : Nat → List Nat} (hh : Holds h D xs) (ho : OrdersOf ord xs) (hL : L.length = D.length)
    (hperm : ∀ j < c, (perm j).Perm (List.range (cls L j).length)) : ∀ (Z : List (List Nat)) (i0 : Nat) (J : List Job) (st : Groups) (K : List Int),
    PInv ord h D m c J st K → Sourced L perm c J → i0 + Z.length ≤ m → (∀ zs ∈ Z, zs.length ≤ c) → (∀ t ∈ J, t.1 < i0) →
    (∀ j, lcount J j + (Z.map fun zs => (zs[j]?).getD 0).sum ≤ (cls L j).length) →
    ∃ T st' K', ((Z.map fun zs => zs.map fun (z : Nat) => (z : Int)).zipIdx i0).foldlM (fun st (Si : List Int × Nat) =>
        if Si.1.sum < 0 then none else
        Si.1.zipIdx.foldlM (fun st (z : Int × Nat) => takeClass ord D ((List.range c).map fun j => (cls L j).map fun (u : Nat) => (u : Int))
          ((List.range c).map perm) Si.2 Si.1.sum z.2 z.1 st) st) (st, K) = some (st', K') ∧
      PInv ord h D m c (J ++ T) st' K' ∧ Sourced L perm c (J ++ T) ∧ (∀ j, lcount T j = (Z.map fun zs => (zs[j]?).getD 0).sum) ∧
      (∀ i j, glcount T i j = if i0 ≤ i then (((Z[i - i0]?).getD [])[j]?).getD 0 else 0) := by
  intro Z
  induction Z with
  | nil =>
    intro i0 J st K hI hS _ _ _ _
    exact ⟨[], st, K, rfl, by simpa using hI, by simpa using hS, by simp [lcount], by simp [glcount]⟩
  | cons zs Z ih =>
    intro i0 J st K hI hS hlen hzs hJ hN
    simp only [List.length_cons] at hlen
    have hsum : (zs.map fun (z : Nat) => (z : Int)).sum = ((zs.sum : Nat) : Int) := by simp
    have hg0 : gcount J i0 = 0 := by
      rw [gcount, List.countP_eq_zero]
      intro t ht
      have := hJ t ht
      simp; omega
    obtain ⟨T1, st1, K1, h1, h2, h3, h4, h5⟩ := takeClasses_spec hh ho hL hperm (i := i0) ((zs.sum : Nat) : Int) (by omega) zs 0 J st K hI hS
      (by have := hzs zs (by simp); omega) (by
        intro j _
        have := hN j
        simp only [List.map_cons, List.sum_cons] at this
        rw [Nat.sub_zero]; omega) (by rw [hg0]; simp)
    simp only [Nat.zero_le, if_true, Nat.sub_zero] at h5
    obtain ⟨T2, st2, K2, g1, g2, g3, g4, g5⟩ := ih (i0 + 1) (J ++ T1) st1 K1 h2 h3 (by omega) (fun x hx => hzs x (by simp [hx])) (by
        intro t ht
        rcases List.mem_append.1 ht with ht | ht
        · have := hJ t ht; omega
        · have := h4 t ht; omega) (by
        intro j
        have := hN j
        simp only [List.map_cons, List.sum_cons] at this
        rw [lcount_append, h5]; omega)
    refine ⟨T1 ++ T2, st2, K2, ?_, by rw [← List.append_assoc]; exact g2, by rw [← List.append_assoc]; exact g3, ?_, ?_⟩
    · simp only [List.map_cons, List.zipIdx_cons, List.foldlM_cons]
      rw [hsum, if_neg (by omega), h1]
      exact g1
    · intro j
      rw [lcount_append, h5, g4]; simp
    · intro i j
      rw [glcount_append, g5]
      have e : glcount T1 i j = if i = i0 then lcount T1 j else 0 := by
        by_cases hi : i = i0
        · subst hi
          rw [if_pos rfl]
          unfold glcount lcount
          apply List.countP_congr
          intro t ht
          simp [h4 t ht]
        · rw [if_neg hi, glcount, List.countP_eq_zero]
          intro t ht
          have := h4 t ht
          simp; omega
      rw [e]
      by_cases hi : i = i0
      · subst hi
        simp [h5]
      · by_cases hi2 : i0 ≤ i
        · have : i0 + 1 ≤ i := by omega
          rw [if_neg hi, if_pos this, if_pos hi2, show i - i0 = (i - (i0 + 1)) + 1 by omega, List.getElem?_cons_succ, zero_add]
        · have : ¬ i0 + 1 ≤ i := by omega
          rw [if_neg hi, if_neg this, if_neg hi2]

theorem leftovers_spec {perm : Nat → List Nat} (hh : Holds h D xs) (ho : OrdersOf ord xs) {N : Nat → Nat} (hN : ∀ j < c, N j ≤ D.length)
    (hperm : ∀ j < c, (perm j).Perm (List.range (N j))) {di j : Nat} (hdi : di < m) (hj : j < c) (J : List Job) (st : Groups) (K : List Int)
    (hI : PInv ord h D m c J st K) (hle : lcount J j ≤ N j) :
    ∃ T st' K', leftovers ord D ((List.range c).map perm) di j (st, K) = some (st', K') ∧ PInv ord h D m c (J ++ T) st' K' ∧ T.length = N j - lcount J j ∧
      ∀ t ∈ T, t.1 = di ∧ t.2.2 = (j : Int) := by
  have hlen : (perm j).length = N j := by rw [(hperm j hj).length_eq, List.length_range]
  unfold leftovers
  rw [goIdx_nat, List.getElem?_map, List.getElem?_range hj, PInv.counter hI hj]
  simp only [Option.map_some, Option.bind_some]
  rw [show ((perm j).length : Int) - (lcount J j : Int) = ((N j - lcount J j : Nat) : Int) by omega]
  generalize hz : N j - lcount J j = z
  have hz' : lcount J j + z ≤ N j := by omega
  clear hz
  induction z with
  | zero => exact ⟨[], st, K, by simp [goFor], by simpa using hI, rfl, by simp⟩
  | succ z ih =>
    obtain ⟨T, st1, K1, h1, h2, h3, h4⟩ := ih (by omega)
    have hcT : lcount (J ++ T) j = lcount J j + z := by
      rw [lcount_append]
      congr 1
      rw [← h3, lcount, List.countP_eq_length]
      intro t ht; simp [(h4 t ht).2]
    have hk : lcount (J ++ T) j < (perm j).length := by omega
    have hl : (perm j)[lcount (J ++ T) j] < N j := List.mem_range.1 ((hperm j hj).mem_iff.1 (List.getElem_mem hk))
    have hl2 := hN j hj
    obtain ⟨st', K', g1, g2, g3⟩ := PInv.step h2 hh ho (u := (perm j)[lcount (J ++ T) j]) hdi (by omega) hj
    refine ⟨T ++ [(di, (perm j)[lcount (J ++ T) j], (j : Int))], st', K', ?_, by rw [← List.append_assoc]; exact g3, by simp [h3], ?_⟩
    · unfold goFor at h1 ⊢
      simp only [Int.toNat_natCast] at h1 ⊢
      rw [List.range_succ, List.foldlM_append, h1]
      simp only [bind, Option.bind_some, List.foldlM_cons, List.foldlM_nil]
      rw [PInv.counter h2 hj]
      simp only [Option.bind_some, goIdx_nat, List.getElem?_eq_getElem hk, g1, g2, Option.map_some]
      rfl
    · intro t ht
      rcases List.mem_append.1 ht with ht | ht
      · exact h4 t ht
      · simp at ht; subst ht; exact ⟨rfl, rfl⟩

theorem allLeftovers_spec {perm : Nat → List Nat} (hh : Holds h D xs) (ho : OrdersOf ord xs) {N : Nat → Nat} (hN : ∀ j < c, N j ≤ D.length)
    (hperm : ∀ j < c, (perm j).Perm (List.range (N j))) {di : Nat} (hdi : di < m) (J : List Job) (st : Groups) (K : List Int)
    (hI : PInv ord h D m c J st K) (hle : ∀ j < c, lcount J j ≤ N j) : ∀ n ≤ c,
    ∃ T st' K', goFor (n : Int) (st, K) (fun st i => leftovers ord D ((List.range c).map perm) di i st) = some (st', K') ∧ PInv ord h D m c (J ++ T) st' K' ∧
      (∀ j, lcount T j = if j < n then N j - lcount J j else 0) ∧ ((∀ j < c, lcount J j = N j) → T = []) := by
  intro n
  induction n with
  | zero => intro _; exact ⟨[], st, K, by simp [goFor], by simpa using hI, by simp [lcount], fun _ => rfl⟩
  | succ n ih =>
    intro hn
    obtain ⟨T1, st1, K1, h1, h2, h3, h4⟩ := ih (by omega)
    have e0 : lcount (J ++ T1) n = lcount J n := by rw [lcount_append, h3, if_neg (by omega), Nat.add_zero]
    obtain ⟨T2, st2, K2, g1, g2, g3, g4⟩ := leftovers_spec hh ho hN hperm hdi (show n < c by omega) (J ++ T1) st1 K1 h2 (by rw [e0]; exact hle n (by omega))
    rw [e0] at g3
    have hl2 : ∀ j, lcount T2 j = if j = n then N n - lcount J n else 0 := by
      intro j
      by_cases hj : j = n
      · subst hj
        rw [if_pos rfl, ← g3, lcount, List.countP_eq_length]
        intro t ht; simp [(g4 t ht).2]
      · rw [if_neg hj, lcount, List.countP_eq_zero]
        intro t ht
        have := (g4 t ht).2
        simp [this]; omega
    refine ⟨T1 ++ T2, st2, K2, ?_, by rw [← List.append_assoc]; exact g2, ?_, ?_⟩
    · unfold goFor at h1 ⊢
      simp only [Int.toNat_natCast] at h1 ⊢
      rw [List.range_succ, List.foldlM_append, h1]
      simp only [bind, Option.bind_some, List.foldlM_cons, List.foldlM_nil, g1]
      rfl
    · intro j
      rw [lcount_append, h3, hl2]
      by_cases hj : j = n
      · subst hj; simp
      · by_cases hj2 : j < n
        · simp [hj, hj2, show j < n + 1 by omega]
        · simp [hj, hj2, show ¬ j < n + 1 by omega]
    · intro hall
      rw [h4 hall, List.nil_append]
      have := hall n (by omega)
      apply List.eq_nil_of_length_eq_zero
      rw [g3]; omega

theorem furthest_lt {F : Type} [GoFloat F] (n : Nat) (sizes : List Nat) (p : List F) (hm : 0 < sizes.length) :
    ∃ di : Nat, furthest n sizes p = (di : Int) ∧ di < sizes.length := by
  unfold furthest
  have : ∀ (l : List ((Nat × F) × Nat)) (d : F) (di : Int), (∀ x ∈ l, x.2 < sizes.length) → (∃ k : Nat, di = (k : Int) ∧ k < sizes.length) →
      ∃ k : Nat, (l.foldl (fun (st : F × Int) (x : (Nat × F) × Nat) =>
        let du := GoFloat.abs (GoFloat.sub (GoFloat.div (GoFloat.ofInt n) (GoFloat.ofInt x.1.1)) x.1.2)
        if GoFloat.lt st.1 du then (du, (x.2 : Int)) else st) (d, di)).2 = (k : Int) ∧ k < sizes.length := by
    intro l
    induction l with
    | nil => intro d di _ h; exact h
    | cons x l ih =>
      intro d di hx hd
      simp only [List.foldl_cons]
      split
      · exact ih _ _ (fun y hy => hx y (by simp [hy])) ⟨x.2, rfl, hx x (by simp)⟩
      · exact ih _ _ (fun y hy => hx y (by simp [hy])) hd
  refine this _ _ _ ?_ ⟨0, rfl, hm⟩
  intro x hx
  have := List.snd_lt_of_mem_zipIdx hx
  simp at this
  omega

end Gospn
