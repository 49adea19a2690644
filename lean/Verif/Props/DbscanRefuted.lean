/-
Inputs on which `DBSCANData` panics, and on which `DBSCAN` separates density-linked rows: C38, utils/cluster/dbscan.go.
-/
import Verif.Props.Dbscan
import Mathlib.Tactic.NormNum
import Mathlib.Tactic.Ring

set_option linter.unusedSectionVars false
set_option linter.unusedSimpArgs false

namespace Gospn
open Spec GoFloat

/-- Nearness of whole numbers on a line. -/
def lineNear (xs : List Int) (e : Int) (i j : Nat) : Bool :=
  match xs[i]?, xs[j]? with
  | some a, some b => decide ((a - b) * (a - b) ≤ e * e)
  | _, _ => false

theorem line_euclid (a b : Int) : euclideanF [(ofInt a : XR)] [(ofInt b : XR)] = some (XR.fin |(a : ℝ) - b|) := by
  unfold euclideanF
  rw [foldlM_pair' (fun (s : XR) a b => add s (mul (sub a b) (sub a b))) [ofInt a] [ofInt b] _ rfl]
  simp only [List.zip_cons_cons, List.zip_nil_right, List.foldl_cons, List.foldl_nil, Option.map_some, XR.g_ofInt]
  have : (sqrt (add (XR.fin ((0 : Int) : ℝ)) (mul (sub (XR.fin (a : ℝ)) (XR.fin (b : ℝ))) (sub (XR.fin (a : ℝ)) (XR.fin (b : ℝ))))) : XR) = XR.fin |(a : ℝ) - b| := by
    have h0 : ¬ ((a : ℝ) - b) * ((a : ℝ) - b) < 0 := not_lt.2 (mul_self_nonneg _)
    simp only [XR.g_sub, XR.sub_fin, XR.g_mul, XR.g_add, XR.g_sqrt, XR.mul, XR.add_fin, XR.sqrt, Int.cast_zero, zero_add, h0, if_false]
    rw [Real.sqrt_mul_self_eq_abs]
  rw [this]

theorem line_near (xs : List Int) (e : Int) (he : 0 ≤ e) :
    dbscanInternal (xs.map fun a => [(ofInt a : XR)]) (ofInt e) = fun mp => scan (lineNear xs e) xs.length mp := by
  funext mp
  have hd : distances (xs.map fun a => [(ofInt a : XR)]) = some (xs.map fun (a : Int) => xs.map fun (b : Int) => XR.fin |(a : ℝ) - b|) := by
    unfold distances
    rw [mapM_some (g := fun x => (xs.map fun b => ((euclideanF x [(ofInt b : XR)]).getD XR.nan)))]
    · rw [List.map_map]
      congr 1
      apply List.map_congr_left
      intro a _
      apply List.map_congr_left
      intro b _
      simp only [Function.comp_apply]; rw [line_euclid]; rfl
    · intro x hx
      obtain ⟨a, _, rfl⟩ := List.mem_map.1 hx
      rw [mapM_some (g := fun y => ((euclideanF [(ofInt a : XR)] y).getD XR.nan))]
      · rw [List.map_map]; rfl
      · intro y hy
        obtain ⟨b, _, rfl⟩ := List.mem_map.1 hy
        rw [line_euclid]; rfl
  unfold dbscanInternal
  rw [hd]
  simp only [Option.bind_some, List.length_map]
  congr 1
  funext i j
  unfold nearBy lineNear
  simp only [List.getElem?_map]
  cases xs[i]? with
  | none => simp
  | some a =>
    simp only [Option.map_some, Option.bind_some, List.getElem?_map]
    cases xs[j]? with
    | none => simp
    | some b =>
      simp only [Option.map_some, XR.g_le, XR.g_ofInt, XR.lt, XR.eq]
      rw [← Bool.decide_or, decide_eq_decide, ← le_iff_lt_or_eq]
      have he' : (0 : ℝ) ≤ e := by exact_mod_cast he
      have h1 : |(a : ℝ) - b| ≤ (e : ℝ) ↔ ((a : ℝ) - b) * ((a : ℝ) - b) ≤ (e : ℝ) * e := by
        rw [← abs_le_iff_mul_self_le, abs_of_nonneg he']
      rw [h1]
      exact_mod_cast Iff.rfl

/-- One instance of variable 0. -/
def one (v : Int) : VarSet := VarSet.empty.set 0 v

theorem ones_orders (xs : List Int) : OrdersOf (fun _ _ => [0]) (xs.map one) := by
  intro t x hx
  obtain ⟨i, _, rfl⟩ := List.mem_map.1 hx
  refine ⟨by simp, fun k => ?_⟩
  by_cases h : k = 0 <;> simp [one, VarSet.set, VarSet.empty, h]

theorem ones_same (xs : List Int) : SameVars (xs.map one) := by
  intro x hx y hy k
  obtain ⟨i, _, rfl⟩ := List.mem_map.1 hx
  obtain ⟨j, _, rfl⟩ := List.mem_map.1 hy
  by_cases h : k = 0 <;> simp [one, VarSet.set, VarSet.empty, h]

theorem ones_matrix (v : Int) (xs : List Int) : dataToMatrix (ofInt : Int → XR) (ofInt 0) (fun _ _ => [0]) ((v :: xs).map one) =
    some ((v :: xs).map fun a => [(ofInt a : XR)], columnVars [0]) := by
  rw [dataToMatrix_spec _ _ (I0 := one v) rfl (ones_orders (v :: xs)) (ones_same (v :: xs))]
  rw [List.map_map]
  rfl

/-- C38 fails as stated: with two equal instances in the dataset, which are density-linked for `eps = 0` and `mp = 1`, `DBSCANData` panics.
The clusters are numbered by their representative, here 1, but only as many as there are clusters, here one, are allocated. -/
theorem C38_refuted : ¬ ∀ (ord : MapOrder) (D : List VarSet) (eps : XR) (mp : Int), D ≠ [] → OrdersOf ord D → SameVars D →
    ∃ C, dbscanData ord D eps mp = some C ∧ C.flatten.Perm D := by
  intro h
  obtain ⟨C, hC, _⟩ := h (fun _ _ => [0]) ([4, 4].map one) (ofInt 0) 1 (by simp) (ones_orders _) (ones_same _)
  unfold dbscanData at hC
  rw [ones_matrix] at hC
  simp only [Option.bind_some] at hC
  rw [line_near [4, 4] 0 (le_refl _)] at hC
  have e : (scan (lineNear [4, 4] 0) 2 1).bind (fun u => (List.range 2).foldlM (fun (st : List Int × Int) (i : Nat) =>
      if u.pa i = i then
        (u.varids i).bind fun ch => (ch.foldlM (fun G c => goSet G c (i : Int)) st.1).map fun G => (G, st.2 + 1)
      else some st) (List.replicate 2 (0 : Int), (0 : Int))) = some ([1, 1], 1) := by decide
  obtain ⟨u, hu, hG⟩ := Option.bind_eq_some_iff.1 e
  simp only [List.length_map, List.length_cons, List.length_nil] at hC hG
  rw [hu] at hC
  simp only [Option.bind_some, zero_add, Nat.reduceAdd] at hC
  rw [hG] at hC
  have := guessToData_bounds (k := 1) hC 1 (by simp)
  omega

theorem line_close (xs : List Int) (e : Int) (i j : Nat) {a b : Int} (ha : xs[i]? = some a) (hb : xs[j]? = some b) :
    Close (xs.map fun a => [(ofInt a : XR)]) (ofInt e) i j ↔ |a - b| ≤ e := by
  have key : (le (XR.fin |(a : ℝ) - b|) (ofInt e : XR)) = true ↔ |a - b| ≤ e := by
    simp only [XR.g_le, XR.g_ofInt, XR.lt, XR.eq]
    rw [← Bool.decide_or, decide_eq_true_iff, ← le_iff_lt_or_eq]
    exact_mod_cast Iff.rfl
  unfold Spec.Close
  simp only [List.getElem?_map, ha, hb, Option.map_some, Option.some.injEq]
  constructor
  · rintro ⟨x, y, d, rfl, rfl, hd, hle⟩
    rw [line_euclid, Option.some.injEq] at hd
    rw [← hd] at hle
    exact key.1 hle
  · intro h
    exact ⟨_, _, _, rfl, rfl, line_euclid a b, key.2 h⟩

/-- C38 fails for `DBSCAN` on matrices too: of the rows 0, 1, 2, 3 with `eps = 1` and `mp = 2` the last two are density-linked (row 2 has the two close rows 1 and 3)
but end up in different clusters, since `dbscanInternal` does not count rows it has already merged. -/
theorem C38_density_refuted : ∃ (data : List (List Int)) (eps : XR) (mp : Int) (K : List (Int → Option (List Int))), Rectangular data ∧ dbscan data eps mp = some K ∧
    DensityLinked (data.map (·.map (ofInt : Int → XR))) eps mp 2 3 ∧ (∃ c ∈ K, c 2 = some [2]) ∧ (∃ c ∈ K, c 3 = some [3]) ∧ ∀ c ∈ K, c 2 = none ∨ c 3 = none := by
  have e : (scan (lineNear [0, 1, 2, 3] 1) 4 2).bind (fun u => (collectSets u 4)) = some [[0, 1, 2], [3]] := by decide
  obtain ⟨u, hu, hK⟩ := Option.bind_eq_some_iff.1 e
  have hm : ([[0], [1], [2], [3]] : List (List Int)).map (·.map (ofInt : Int → XR)) = ([0, 1, 2, 3] : List Int).map fun a => [(ofInt a : XR)] := rfl
  have hK' : dbscan ([[0], [1], [2], [3]] : List (List Int)) (ofInt 1 : XR) 2 = some ([[0, 1, 2], [3]].map fun s l => if l ∈ s then ([[0], [1], [2], [3]] : List (List Int))[l.toNat]? else none) := by
    unfold dbscan
    rw [hm, line_near [0, 1, 2, 3] 1 (by norm_num)]
    simp only [List.length_cons, List.length_nil, zero_add, Nat.reduceAdd]
    rw [hu]
    simp only [Option.bind_some, List.getElem?_cons_zero, hK]
    simp only [List.mapM_cons, List.mapM_nil, List.foldlM_cons, List.foldlM_nil, goIdx, pure, bind, Option.bind_some, Option.map_some]
    simp
    constructor
    · funext z
      by_cases h2 : z = 2 <;> by_cases h0 : z = 0 <;> by_cases h1 : z = 1 <;> simp_all
    · funext z
      by_cases h : z = 3 <;> simp_all
  refine ⟨[[0], [1], [2], [3]], ofInt 1, 2, _, by unfold Rectangular; decide, hK', ?_, ?_, ?_, ?_⟩
  · refine .rel _ _ ⟨?_, ?_⟩
    · classical
      unfold Spec.Core
      rw [hm]
      have h1 : Close (([0, 1, 2, 3] : List Int).map fun a => [(ofInt a : XR)]) (ofInt 1) 2 1 := (line_close _ _ 2 1 (a := 2) (b := 1) rfl rfl).2 (by decide)
      have h3 : Close (([0, 1, 2, 3] : List Int).map fun a => [(ofInt a : XR)]) (ofInt 1) 2 3 := (line_close _ _ 2 3 (a := 2) (b := 3) rfl rfl).2 (by decide)
      have h0 : ¬ Close (([0, 1, 2, 3] : List Int).map fun a => [(ofInt a : XR)]) (ofInt 1) 2 0 := fun h => absurd ((line_close _ _ 2 0 (a := 2) (b := 0) rfl rfl).1 h) (by decide)
      rw [show (List.range (([0, 1, 2, 3] : List Int).map fun a => [(ofInt a : XR)]).length) = [0, 1, 2, 3] from rfl]
      rw [List.filter_cons_of_neg (by simp only [decide_eq_true_iff]; exact fun h => h0 h.2), List.filter_cons_of_pos (by simp only [decide_eq_true_iff]; exact ⟨by decide, h1⟩),
        List.filter_cons_of_neg (by simp only [decide_eq_true_iff]; exact fun h => h.1 rfl), List.filter_cons_of_pos (by simp only [decide_eq_true_iff]; exact ⟨by decide, h3⟩)]
      simp
    · rw [hm]
      exact (line_close _ _ 2 3 (a := 2) (b := 3) rfl rfl).2 (by decide)
  · exact ⟨_, List.mem_map.2 ⟨[0, 1, 2], by simp, rfl⟩, by simp⟩
  · exact ⟨_, List.mem_map.2 ⟨[3], by simp, rfl⟩, by simp⟩
  · intro c hc
    obtain ⟨s, hs, rfl⟩ := List.mem_map.1 hc
    simp only [List.mem_cons, List.not_mem_nil, or_false] at hs
    rcases hs with rfl | rfl <;> simp

/-- `DBSCANData` does return for instances 10, 0, 1, 2 with `eps = 1` and `mp = 2`: the hypothesis of `C38_returned_partial` holds. -/
example : ∃ C, dbscanData (fun _ _ => [0]) ([10, 0, 1, 2].map one) (ofInt 1 : XR) 2 = some C := by
  have e : (scan (lineNear [10, 0, 1, 2] 1) 4 2).bind (fun u => (List.range 4).foldlM (fun (st : List Int × Int) (i : Nat) =>
      if u.pa i = i then
        (u.varids i).bind fun ch => (ch.foldlM (fun G c => goSet G c (i : Int)) st.1).map fun G => (G, st.2 + 1)
      else some st) (List.replicate 4 (0 : Int), (0 : Int))) = some ([0, 1, 1, 1], 2) := by decide
  obtain ⟨u, hu, hG⟩ := Option.bind_eq_some_iff.1 e
  obtain ⟨M, Sc, C, g1, g2, _⟩ := C39_groups (F := XR) (k := 2) (ord := fun _ _ => [0]) (D := [10, 0, 1, 2].map one) (G := [0, 1, 1, 1]) (by simp) (ones_orders _) (ones_same _)
    (by intro x _ c v _; simp [XR.toInt]) rfl (by decide)
  rw [ones_matrix, Option.some.injEq, Prod.mk.injEq] at g1
  obtain ⟨rfl, rfl⟩ := g1
  refine ⟨C, ?_⟩
  unfold dbscanData
  rw [ones_matrix]
  simp only [Option.bind_some]
  rw [line_near [10, 0, 1, 2] 1 (by norm_num)]
  simp only [List.length_map, List.length_cons, List.length_nil, zero_add, Nat.reduceAdd] at hu hG ⊢
  rw [hu]
  simp only [Option.bind_some]
  rw [hG]
  exact g2

noncomputable example : ∃ K R, dbscan ([[0, 3], [1, 3], [7, 3]] : List (List Int)) (ofInt 1 : XR) 1 = some (K.map fun s l => if l ∈ s then ([[0, 3], [1, 3], [7, 3]] : List (List Int))[l.toNat]? else none) ∧
    IsPartitionInto [0, 1, 2] R K := by
  obtain ⟨K, R, h1, h2, _⟩ := C38_dbscan_partial (F := XR) [[0, 3], [1, 3], [7, 3]] (by simp) (by unfold Rectangular; decide) (ofInt 1) 1
  exact ⟨K, R, h1, h2⟩

end Gospn
