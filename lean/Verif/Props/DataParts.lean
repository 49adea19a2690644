/-
Theorems about splitting datasets by proportions: C42, C43, data/manipulate.go.
-/
import Verif.Proofs.DataParts
import Verif.Props.Data

set_option linter.unusedSectionVars false
set_option linter.unusedSimpArgs false

namespace Gospn
open Spec

/-! ### C42 -/

def partStep (ord : MapOrder) (R : List Nat) (D : List Addr) (st : Groups × Int) (g : Nat) : Option (Groups × Int) :=
  (goIdx R st.2).bind fun r => (place ord D st.1 g r r).map fun s => (s, st.2 + 1)

theorem goFor_const {α : Type} (n : Nat) (st : α) (g : Nat) (f : α → Nat → Option α) :
    goFor (n : Int) st (fun st _ => f st g) = (List.replicate n g).foldlM f st := by
  simp only [goFor, Int.toNat_natCast]
  rw [show List.replicate n g = (List.range n).map (fun _ => g) by simp, List.foldlM_map]

theorem partition_seq (ord : MapOrder) (R : List Nat) (D : List Addr) : ∀ (S : List Int) (i : Nat) (st : Groups × Int), (∀ s ∈ S, 0 ≤ s) →
    (S.zipIdx i).foldlM (fun (st : Groups × Int) (s : Int × Nat) =>
      if s.1 < 0 then none
      else goFor s.1 st fun (st, k) _ => (goIdx R k).bind fun r => (place ord D st s.2 r r).map fun st => (st, k + 1)) st
      = (groupSeq S i).foldlM (partStep ord R D) st := by
  intro S
  induction S with
  | nil => intros; rfl
  | cons s S ih =>
    intro i st h
    have h0 := h s (by simp)
    simp only [List.zipIdx_cons, List.foldlM_cons, groupSeq, List.foldlM_append]
    rw [if_neg (by omega)]
    congr 1
    · conv_lhs => rw [← Int.toNat_of_nonneg h0]
      exact goFor_const s.toNat st i (partStep ord R D)
    · funext st'
      exact ih (i + 1) st' fun x hx => h x (by simp [hx])

theorem partStep_jobs (ord : MapOrder) (R : List Nat) (D : List Addr) : ∀ (gs : List Nat) (k : Nat) (st : Groups), k + gs.length ≤ R.length →
    gs.foldlM (partStep ord R D) (st, (k : Int)) = (runJobs ord D (List.zipWith (fun g r => ((g, r, (r : Int)) : Job)) gs (R.drop k)) st).map fun s => (s, ((k + gs.length : Nat) : Int)) := by
  intro gs
  induction gs with
  | nil => intro k st _; simp [runJobs]
  | cons g gs ih =>
    intro k st h
    have hk : k < R.length := by simp at h; omega
    rw [List.drop_eq_getElem_cons hk]
    simp only [List.foldlM_cons, List.zipWith_cons_cons, runJobs, partStep, goIdx_nat, List.getElem?_eq_getElem hk, Option.bind_some]
    cases hp : place ord D st g R[k] R[k] with
    | none => rfl
    | some s =>
      simp only [Option.map_some, bind, Option.bind_some]
      have := ih (k + 1) s (by simp at h; omega)
      rw [runJobs] at this
      rw [List.length_cons, show k + (gs.length + 1) = k + 1 + gs.length by omega]
      exact_mod_cast this

theorem filter_zipWith_length (gs : List Nat) (R : List Nat) (h : gs.length ≤ R.length) (g : Nat) :
    ((List.zipWith (fun g r => ((g, r, (r : Int)) : Job)) gs R).filter (fun j => j.1 = g)).length = gs.count g := by
  induction gs generalizing R with
  | nil => simp
  | cons a gs ih =>
    cases R with
    | nil => simp at h
    | cons r R =>
      simp only [List.zipWith_cons_cons, List.count_cons]
      by_cases ha : a = g
      · simp [ha, ih R (by simpa using h)]
      · simp [ha, ih R (by simpa using h)]

/-- `Partition` when all sizes it computes are non-negative. -/
theorem partition_spec {ord : MapOrder} {R : List Nat} {h : Mem} {D : List Addr} {xs : List VarSet} (p : List ℝ) (hh : Holds h D xs) (ho : OrdersOf ord xs)
    (hR : R.Perm (List.range xs.length)) (hsum : p.sum = 1) (hnn : ∀ q ∈ casc 0 0 (p.map fun x => (xs.length : ℝ) * x), 0 ≤ q) :
    ∃ st ys, partition ord R h D (p.map XR.fin) = some st ∧ List.Forall₂ (Holds st.mem) st.data ys ∧ NewMaps h st.mem st.data.flatten ∧
      ys.length = p.length ∧ ys.flatten.Perm xs ∧
      ∀ j ≤ p.length, |(xs.length : ℝ) * (p.take j).sum - ((ys.take j).map List.length).sum| ≤ 1 / 2 := by
  have hD := Holds.length hh
  have hRl : R.length = xs.length := by rw [hR.length_eq, List.length_range]
  set S := casc 0 0 (p.map fun x => (xs.length : ℝ) * x) with hS
  have hmul : ∀ l : List ℝ, (l.map fun x => (xs.length : ℝ) * x).sum = xs.length * l.sum := by
    intro l
    induction l with
    | nil => simp
    | cons a l ih => simp [ih, mul_add]
  have hpre : ∀ j, |(xs.length : ℝ) * (p.take j).sum - ((S.take j).sum : ℤ)| ≤ 1 / 2 := by
    intro j
    have := casc_prefix (p.map fun x => (xs.length : ℝ) * x) 0 0 (by simp) j
    rw [← List.map_take, hmul] at this
    simpa using this
  have hSlen : S.length = p.length := by rw [hS, casc_length, List.length_map]
  have htot : S.sum = xs.length := by
    have h1 := hpre p.length
    rw [List.take_of_length_le (le_refl _), List.take_of_length_le (by omega), hsum, mul_one, abs_le] at h1
    have h2 : (((xs.length : ℤ) - S.sum : ℤ) : ℝ) < 1 := by rw [Int.cast_sub]; push_cast [- Int.cast_list_sum]; linarith [h1.2]
    have h3 : (-1 : ℝ) < (((xs.length : ℤ) - S.sum : ℤ) : ℝ) := by rw [Int.cast_sub]; push_cast [- Int.cast_list_sum]; linarith [h1.1]
    have h2' : (xs.length : ℤ) - S.sum < 1 := by exact_mod_cast h2
    have h3' : -1 < (xs.length : ℤ) - S.sum := by exact_mod_cast h3
    omega
  have hlen : (groupSeq S 0).length = R.length := by
    have := groupSeq_length S 0 hnn
    omega
  set js := List.zipWith (fun g r => ((g, r, (r : Int)) : Job)) (groupSeq S 0) R with hjs
  have hvalid : ∀ j ∈ js, j.1 < p.length ∧ j.2.1 < D.length := by
    intro j hj
    obtain ⟨i, hi, rfl⟩ := List.getElem_of_mem hj
    have hi1 : i < (groupSeq S 0).length := by simp [hjs] at hi; omega
    have hi2 : i < R.length := by omega
    simp only [hjs, List.getElem_zipWith]
    have h1 := groupSeq_lt S 0 _ (List.getElem_mem hi1)
    have h2 := List.mem_range.1 (hR.mem_iff.1 (List.getElem_mem hi2))
    exact ⟨by omega, by omega⟩
  obtain ⟨st, h1, h2⟩ := runJobs_groups (n := p.length) ho hh js hvalid
  refine ⟨st, (jobsOut xs js p.length).map (·.map Prod.fst), ?_, ?_, h2.2.2, by simp [jobsOut], ?_, ?_⟩
  · unfold partition
    have e1 : (p.map XR.fin).map (fun x => GoFloat.mul (GoFloat.ofInt D.length) x) = (p.map fun x => (xs.length : ℝ) * x).map XR.fin := by
      simp only [List.map_map]
      apply List.map_congr_left
      intro x _
      simp [XR.mul, hD]
    simp only [e1, cascadeRounding_eq, ← hS, List.length_map]
    rw [partition_seq ord R D S 0 _ hnn]
    have := partStep_jobs ord R D (groupSeq S 0) 0 ⟨h, List.replicate p.length [], List.replicate p.length []⟩ (by omega)
    simp only [Nat.cast_zero, List.drop_zero] at this
    rw [this, ← hjs, h1]
    rfl
  · rw [List.forall₂_map_right_iff]
    exact h2.1
  · rw [← List.map_flatten]
    have := (jobsOut_flatten xs p.length js (fun j hj => (hvalid j hj).1)).map Prod.fst
    refine this.trans ?_
    rw [List.map_map]
    have e : js.map (Prod.fst ∘ fun j => (jobInst xs j, j.2.2)) = (js.map fun j => j.2.1).map fun r => (xs[r]?).getD VarSet.empty := by
      rw [List.map_map]; rfl
    have e2 : (js.map fun j => j.2.1) = R := by
      rw [hjs, List.map_zipWith]
      apply List.ext_getElem
      · simp; omega
      · intro i hi hi'; simp
    rw [e, e2]
    refine (hR.map _).trans ?_
    apply List.Perm.of_eq
    apply List.ext_getElem
    · simp
    · intro i hi hi'
      simp [hi']
  · intro j hj
    have e : (((jobsOut xs js p.length).map (·.map Prod.fst)).take j).map List.length = (S.take j).map Int.toNat := by
      apply List.ext_getElem
      · simp [jobsOut, hSlen]
      · intro i hi hi'
        have hi1 : i < S.length := by simp at hi'; omega
        simp only [List.getElem_map, List.getElem_take, jobsOut, List.getElem_range, List.length_map]
        rw [hjs, filter_zipWith_length _ _ (by omega), groupSeq_count]
        simp [hi1]
    rw [e]
    have h3 : (((S.take j).map Int.toNat).sum : ℝ) = ((S.take j).sum : ℤ) := by
      have : ∀ l : List ℤ, (∀ q ∈ l, 0 ≤ q) → ((l.map Int.toNat).sum : ℤ) = l.sum := by
        intro l
        induction l with
        | nil => simp
        | cons a l ih =>
          intro hl
          have h0 := hl a (by simp)
          simp only [List.map_cons, List.sum_cons, Nat.cast_add]
          rw [ih fun q hq => hl q (by simp [hq]), Int.toNat_of_nonneg h0]
      rw [← this (S.take j) fun q hq => hnn q (List.mem_of_mem_take hq)]
      exact (Int.cast_natCast _).symm
    rw [h3]
    exact hpre j

/-- C42 for proportions none of whose partial sums hits a half-integer number of instances: `Partition` returns parts of new maps that together contain
every instance once, and the sizes of the first `j` parts add up to the required number rounded to the nearest.
Missing: partial sums that are exactly half-integer, where `Partition` may panic (`C42_refuted`); if it returns, the claim holds (`C42_returned_partial`).
Arithmetic is exact. -/
theorem C42_partition_partial {ord : MapOrder} {R : List Nat} {h : Mem} {D : List Addr} {xs : List VarSet} (p : List ℝ) (hh : Holds h D xs) (ho : OrdersOf ord xs)
    (hR : R.Perm (List.range xs.length)) (hp : ∀ x ∈ p, 0 ≤ x) (hsum : p.sum = 1)
    (hhalf : ∀ j ≤ p.length, ∀ z : ℤ, (xs.length : ℝ) * (p.take j).sum ≠ z + 1 / 2) :
    ∃ st ys, partition ord R h D (p.map XR.fin) = some st ∧ List.Forall₂ (Holds st.mem) st.data ys ∧ NewMaps h st.mem st.data.flatten ∧
      ys.length = p.length ∧ ys.flatten.Perm xs ∧
      ∀ j ≤ p.length, |(xs.length : ℝ) * (p.take j).sum - ((ys.take j).map List.length).sum| ≤ 1 / 2 := by
  refine partition_spec p hh ho hR hsum ?_
  refine casc_nonneg _ 0 0 (by simp) ?_ ?_
  · intro x hx
    obtain ⟨y, hy, rfl⟩ := List.mem_map.1 hx
    exact mul_nonneg (by positivity) (hp y hy)
  · intro j hj z
    have hmul : ∀ l : List ℝ, (l.map fun x => (xs.length : ℝ) * x).sum = xs.length * l.sum := by
      intro l
      induction l with
      | nil => simp
      | cons a l ih => simp [ih, mul_add]
    rw [← List.map_take, hmul, zero_add]
    exact hhalf j (by simpa using hj) z

theorem foldlM_none_of_mem {α σ : Type} {f : σ → α → Option σ} (a : α) (h : ∀ s, f s a = none) : ∀ (l : List α), a ∈ l → ∀ st, l.foldlM f st = none := by
  intro l
  induction l with
  | nil => intro ha; simp at ha
  | cons b l ih =>
    intro ha st
    simp only [List.foldlM_cons]
    rcases List.mem_cons.1 ha with rfl | ha
    · rw [h]; rfl
    · cases f st b with
      | none => rfl
      | some s => exact ih ha s

/-- C42: whenever `Partition` returns, for any proportions, its result is as claimed. -/
theorem C42_returned_partial {ord : MapOrder} {R : List Nat} {h : Mem} {D : List Addr} {xs : List VarSet} {st : Groups} (p : List ℝ) (hh : Holds h D xs)
    (ho : OrdersOf ord xs) (hR : R.Perm (List.range xs.length)) (hsum : p.sum = 1) (hst : partition ord R h D (p.map XR.fin) = some st) :
    ∃ ys, List.Forall₂ (Holds st.mem) st.data ys ∧ NewMaps h st.mem st.data.flatten ∧ ys.length = p.length ∧ ys.flatten.Perm xs ∧
      ∀ j ≤ p.length, |(xs.length : ℝ) * (p.take j).sum - ((ys.take j).map List.length).sum| ≤ 1 / 2 := by
  have hD := Holds.length hh
  have hnn : ∀ q ∈ casc 0 0 (p.map fun x => (xs.length : ℝ) * x), 0 ≤ q := by
    intro q hq
    by_contra hneg
    unfold partition at hst
    have e1 : (p.map XR.fin).map (fun x => GoFloat.mul (GoFloat.ofInt D.length) x) = (p.map fun x => (xs.length : ℝ) * x).map XR.fin := by
      simp only [List.map_map]
      apply List.map_congr_left
      intro x _
      simp [XR.mul, hD]
    simp only [e1, cascadeRounding_eq] at hst
    obtain ⟨i, hi, hqi⟩ := List.getElem_of_mem hq
    rw [foldlM_none_of_mem (q, i) (by intro s; simp; omega) _ (List.mk_mem_zipIdx_iff_getElem?.2 (by simp [← hqi]))] at hst
    simp at hst
  obtain ⟨st', ys, h1, h2⟩ := partition_spec p hh ho hR hsum hnn
  rw [hst] at h1
  cases h1
  exact ⟨ys, h2⟩

/-- C42 fails: for one instance and the proportions 1/2, 0, 1/2, `Partition` panics (a part of size -1), whatever the random numbers. -/
theorem C42_refuted (ord : MapOrder) (R : List Nat) (h : Mem) (a : Addr) :
    (∀ x ∈ [(1 / 2 : ℝ), 0, 1 / 2], 0 ≤ x) ∧ [(1 / 2 : ℝ), 0, 1 / 2].sum = 1 ∧ partition ord R h [a] ([(1 / 2 : ℝ), 0, 1 / 2].map XR.fin) = none := by
  refine ⟨?_, by norm_num, ?_⟩
  · intro x hx
    simp only [List.mem_cons, List.not_mem_nil, or_false] at hx
    rcases hx with rfl | rfl | rfl <;> norm_num
  · unfold partition
    have e1 : ([(1 / 2 : ℝ), 0, 1 / 2].map XR.fin).map (fun x => GoFloat.mul (GoFloat.ofInt (([a] : List Addr).length : Int)) x) = [(1 / 2 : ℝ), 0, 1 / 2].map XR.fin := by
      simp [XR.mul]
    have r1 : rnd (0 + 1 / 2 - ((0 : ℤ) : ℝ)) = 1 := by
      unfold rnd
      norm_num
    have r2 : rnd (0 + 1 / 2 + 0 - ((0 + 1 : ℤ) : ℝ)) = -1 := by
      unfold rnd
      norm_num
    simp only [e1, cascadeRounding_eq]
    rw [foldlM_none_of_mem ((-1 : ℤ), 1) (by intro s; simp) _ (by
      rw [List.mk_mem_zipIdx_iff_getElem?]
      simp only [casc, r1, r2]
      rfl)]
    rfl

/-- The hypotheses of C42 hold for five instances and the proportions 0.3 and 0.7: 1.5 instances would be half-integer, so take 0.4 and 0.6. -/
example : ∃ st ys, partition (fun _ _ => [1, 0]) [3, 1, 4, 0, 2] five (List.range 5) ([(2 / 5 : ℝ), 3 / 5].map XR.fin) = some st ∧
    List.Forall₂ (Holds st.mem) st.data ys ∧ ys.flatten.Perm five := by
  obtain ⟨st, ys, h1, h2, _, _, h3, _⟩ := C42_partition_partial [(2 / 5 : ℝ), 3 / 5] five_holds five_orders (R := [3, 1, 4, 0, 2]) (by decide)
    (by intro x hx; simp only [List.mem_cons, List.not_mem_nil, or_false] at hx; rcases hx with rfl | rfl <;> norm_num) (by norm_num) (by
      have hl : five.length = 5 := rfl
      intro j hj z hz
      rw [hl] at hz
      have hj2 : j ≤ 2 := hj
      rcases (by omega : j = 0 ∨ j = 1 ∨ j = 2) with rfl | rfl | rfl <;> norm_num at hz
      · have h2 : ((2 * z + 1 : ℤ) : ℝ) = ((0 : ℤ) : ℝ) := by push_cast; linarith
        have h3 : 2 * z + 1 = 0 := by exact_mod_cast h2
        omega
      · have h2 : ((2 * z + 1 : ℤ) : ℝ) = ((4 : ℤ) : ℝ) := by push_cast; linarith
        have h3 : 2 * z + 1 = 4 := by exact_mod_cast h2
        omega
      · have h2 : ((2 * z + 1 : ℤ) : ℝ) = ((10 : ℤ) : ℝ) := by push_cast; linarith
        have h3 : 2 * z + 1 = 10 := by exact_mod_cast h2
        omega)
  exact ⟨st, ys, h1, h2, h3⟩

end Gospn
