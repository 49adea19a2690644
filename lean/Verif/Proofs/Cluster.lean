import Verif.Model.Cluster
import Verif.Spec.Cluster
import Verif.Props.Metrics
import Mathlib.Tactic.Linarith
set_option linter.unusedSectionVars false
set_option linter.unusedSimpArgs false
/-
The loop shared by KMode, OldKMeans and KMedoid.
-/
namespace Gospn
open Spec GoFloat
variable {σ : Type}

/-! ### Choosing the nearest centre -/

theorem nearest_fold (d : Nat → Option Int) (t : Nat → Int) : ∀ (js : List Nat) (s : Int × Option Nat), (∀ j ∈ js, d j = some (t j)) → (∀ w, s.2 = some w → s.1 = t w) →
    ∃ s' : Int × Option Nat, js.foldlM (fun (s : Int × Option Nat) j =>
        if some j ≠ s.2 then (d j).map fun u => if u < s.1 then (u, some j) else s else some s) s = some s' ∧
      (∀ w, s'.2 = some w → s'.1 = t w) ∧ s'.1 ≤ s.1 ∧ (∀ j ∈ js, s'.1 ≤ t j) ∧ (s' = s ∨ ∃ w ∈ js, s'.2 = some w ∧ s'.1 < s.1) := by
  intro js
  induction js with
  | nil => intro s _ h; exact ⟨s, rfl, h, le_refl _, by simp, Or.inl rfl⟩
  | cons j js ih =>
    intro s hd hs
    have hdj := hd j (by simp)
    by_cases h1 : some j = s.2
    · obtain ⟨s', e, a1, a2, a3, a4⟩ := ih s (fun i hi => hd i (by simp [hi])) hs
      refine ⟨s', by simp only [List.foldlM_cons, ne_eq, h1, not_true_eq_false, if_false]; exact e, a1, a2, ?_, ?_⟩
      · intro i hi
        rcases List.mem_cons.1 hi with rfl | hi
        · rw [← hs _ h1.symm]; exact a2
        · exact a3 i hi
      · rcases a4 with a4 | ⟨w, hw, a4⟩
        · exact Or.inl a4
        · exact Or.inr ⟨w, by simp [hw], a4⟩
    · by_cases h2 : t j < s.1
      · obtain ⟨s', e, a1, a2, a3, a4⟩ := ih (t j, some j) (fun i hi => hd i (by simp [hi])) (fun w hw => by cases hw; rfl)
        refine ⟨s', ?_, a1, by have : s'.1 ≤ t j := a2; omega, ?_, ?_⟩
        · simp only [List.foldlM_cons, ne_eq, h1, not_false_eq_true, if_true, hdj, Option.map_some, h2]; exact e
        · intro i hi
          rcases List.mem_cons.1 hi with rfl | hi
          · exact a2
          · exact a3 i hi
        · rcases a4 with a4 | ⟨w, hw, a4, a5⟩
          · subst a4; exact Or.inr ⟨j, by simp, rfl, h2⟩
          · exact Or.inr ⟨w, by simp [hw], a4, by have : s'.1 < t j := a5; omega⟩
      · obtain ⟨s', e, a1, a2, a3, a4⟩ := ih s (fun i hi => hd i (by simp [hi])) hs
        refine ⟨s', ?_, a1, a2, ?_, ?_⟩
        · simp only [List.foldlM_cons, ne_eq, h1, not_false_eq_true, if_true, hdj, Option.map_some, h2, if_false]; exact e
        · intro i hi
          rcases List.mem_cons.1 hi with rfl | hi
          · omega
          · exact a3 i hi
        · rcases a4 with a4 | ⟨w, hw, a4⟩
          · exact Or.inl a4
          · exact Or.inr ⟨w, by simp [hw], a4⟩

/-- The nearest centre: it exists, no centre is nearer, and it differs from the present one only if it is strictly nearer. -/
theorem nearestCentre_spec (O : CentreOps σ) (k : Nat) (hk : 0 < k) (L : CentreLoop σ) (row : List Int) (t : Nat → Int)
    (hd : ∀ j < k, O.dist L.st j row = some (t j)) (hle : ∀ j < k, t j ≤ row.length) (hc : ∀ v, L.chk.getD L.i none = some v → v < k) :
    ∃ w, nearestCentre O k L row = some (some w) ∧ w < k ∧ (∀ j < k, t w ≤ t j) ∧ ∀ v, L.chk.getD L.i none = some v → v = w ∨ t w < t v := by
  unfold nearestCentre
  cases hchk : L.chk.getD L.i none with
  | some v =>
    have hv := hc v hchk
    obtain ⟨s', e, a1, a2, a3, a4⟩ := nearest_fold (fun j => O.dist L.st j row) t (List.range k) (t v, some v) (fun j hj => hd j (List.mem_range.1 hj))
      (fun w hw => by cases hw; rfl)
    simp only [hd v hv, Option.map_some, Option.bind_some]
    rw [e, Option.map_some]
    rcases a4 with rfl | ⟨w, hw, h1, h2⟩
    · refine ⟨v, rfl, hv, fun j hj => a3 j (List.mem_range.2 hj), ?_⟩
      intro u hu; cases hu; exact Or.inl rfl
    · refine ⟨w, by rw [h1], List.mem_range.1 hw, fun j hj => by rw [← a1 w h1]; exact a3 j (List.mem_range.2 hj), ?_⟩
      intro u hu; cases hu; right
      rw [← a1 w h1]; exact h2
  | none =>
    obtain ⟨s', e, a1, a2, a3, a4⟩ := nearest_fold (fun j => O.dist L.st j row) t (List.range k) ((row.length : Int) + 1, none)
      (fun j hj => hd j (List.mem_range.1 hj)) (fun w hw => by cases hw)
    simp only [Option.bind_some]
    rw [e, Option.map_some]
    have h0 := a3 0 (List.mem_range.2 hk)
    have h0' := hle 0 hk
    rcases a4 with rfl | ⟨w, hw, h1, h2⟩
    · simp only at h0; omega
    · refine ⟨w, by rw [h1], List.mem_range.1 hw, fun j hj => by rw [← a1 w h1]; exact a3 j (List.mem_range.2 hj), ?_⟩
      intro u hu; cases hu

/-! ### The invariant of the loop -/

/-- What the loop needs of its operations: distances to the `k` centres are given and at most the length of a row; adding an unassigned row and moving a row to a
strictly nearer centre do not panic and keep the invariant. -/
structure CentreInv (O : CentreOps σ) (k : Nat) (data : List (List Int)) (Inv : σ → List (Option Nat) → Prop) (t : σ → Nat → List Int → Int) : Prop where
  len : ∀ {st chk}, Inv st chk → chk.length = data.length
  chk : ∀ {st chk i v}, Inv st chk → chk.getD i none = some v → v < k
  dist : ∀ {st chk j row}, Inv st chk → j < k → row ∈ data → O.dist st j row = some (t st j row) ∧ t st j row ≤ row.length
  insert : ∀ {st chk i row w}, Inv st chk → data[i]? = some row → chk.getD i none = none → w < k →
    ∃ st', O.insert st w row i = some st' ∧ Inv st' (chk.set i (some w))
  move : ∀ {st chk i row v w}, Inv st chk → data[i]? = some row → chk.getD i none = some v → w < k → v ≠ w → t st w row < t st v row →
    ∃ st1 st', O.remove st v row i = some st1 ∧ O.insert st1 w row i = some st' ∧ Inv st' (chk.set i (some w))

/-- Row `r` is in the cluster of a nearest centre. -/
def Settled (t : σ → Nat → List Int → Int) (k : Nat) (data : List (List Int)) (st : σ) (chk : List (Option Nat)) (r : Nat) : Prop :=
  ∃ v, chk.getD r none = some v ∧ v < k ∧ ∀ row, data[r]? = some row → ∀ j < k, t st v row ≤ t st j row

/-- The row looked at `d` iterations before row `i`. -/
def rowBack (n i d : Nat) : Nat := if d ≤ i then i - d else i + n - d

structure LoopInv (k : Nat) (data : List (List Int)) (Inv : σ → List (Option Nat) → Prop) (t : σ → Nat → List Int → Int) (L : CentreLoop σ) : Prop where
  inv : Inv L.st L.chk
  idx : L.i < data.length
  settled : ∀ d, 1 ≤ d → d ≤ L.nochange → d ≤ data.length → Settled t k data L.st L.chk (rowBack data.length L.i d)

variable {O : CentreOps σ} {k : Nat} {data : List (List Int)} {Inv : σ → List (Option Nat) → Prop} {t : σ → Nat → List Int → Int}

/-- The four things an iteration can do. -/
theorem centreStep_spec (h : CentreInv O k data Inv t) (hk : 0 < k) {L : CentreLoop σ} (hL : LoopInv k data Inv t L) :
    ∃ L' row w, centreStep O k data L = some L' ∧ LoopInv k data Inv t L' ∧ data[L.i]? = some row ∧ w < k ∧ (∀ j < k, t L.st w row ≤ t L.st j row) ∧
      ((L.chk.getD L.i none = none ∧ L'.nochange = 0 ∧ O.insert L.st w row L.i = some L'.st ∧ L'.chk = L.chk.set L.i (some w)) ∨
       (∃ v st1, L.chk.getD L.i none = some v ∧ v ≠ w ∧ t L.st w row < t L.st v row ∧ L'.nochange = 0 ∧ O.remove L.st v row L.i = some st1 ∧
          O.insert st1 w row L.i = some L'.st ∧ L'.chk = L.chk.set L.i (some w)) ∨
       (L.chk.getD L.i none = some w ∧ L'.nochange = L.nochange + 1 ∧ L'.st = L.st ∧ L'.chk = L.chk)) := by
  have hi := hL.idx
  have hrow : data[L.i]? = some data[L.i] := List.getElem?_eq_getElem hi
  have hmem : data[L.i] ∈ data := List.getElem_mem hi
  obtain ⟨w, e, hw, hmin, hbetter⟩ := nearestCentre_spec O k hk L data[L.i] (fun j => t L.st j data[L.i]) (fun j hj => (h.dist hL.inv hj hmem).1)
    (fun j hj => (h.dist hL.inv hj hmem).2) (fun v hv => h.chk hL.inv hv)
  have hnext : (if data.length ≤ L.i + 1 then 0 else L.i + 1) < data.length := by split <;> omega
  unfold centreStep
  simp only [hrow, Option.bind_some, e]
  cases hchk : L.chk.getD L.i none with
  | none =>
    obtain ⟨st', e1, h1⟩ := h.insert hL.inv hrow hchk hw
    simp only [e1, Option.map_some]
    refine ⟨_, data[L.i], w, rfl, ⟨h1, hnext, ?_⟩, rfl, hw, hmin, Or.inl ⟨by first | rfl | trivial, rfl, e1, rfl⟩⟩
    intro d hd1 hd2; simp only at hd2; omega
  | some v =>
    by_cases hvw : v = w
    · subst hvw
      simp only [ne_eq, not_true_eq_false, if_false]
      refine ⟨_, data[L.i], v, rfl, ⟨hL.inv, hnext, ?_⟩, rfl, hw, hmin, Or.inr (Or.inr ⟨by first | rfl | trivial, rfl, rfl, rfl⟩)⟩
      intro d hd1 hd2 hd3
      dsimp only at hd2 ⊢
      by_cases h1 : d = 1
      · subst h1
        have : rowBack data.length (if data.length ≤ L.i + 1 then 0 else L.i + 1) 1 = L.i := by unfold rowBack; split <;> split <;> omega
        rw [this]
        exact ⟨v, hchk, hw, fun row hr j hj => by rw [hrow] at hr; cases hr; exact hmin j hj⟩
      · have : rowBack data.length (if data.length ≤ L.i + 1 then 0 else L.i + 1) d = rowBack data.length L.i (d - 1) := by
          unfold rowBack; split <;> split <;> split <;> omega
        rw [this]
        exact hL.settled (d - 1) (by omega) (by omega) (by omega)
    · have hb := (hbetter v hchk).resolve_left hvw
      obtain ⟨st1, st', e1, e2, h1⟩ := h.move hL.inv hrow hchk hw hvw hb
      simp only [ne_eq, hvw, not_false_eq_true, if_true, e1, Option.bind_some, e2, Option.map_some]
      refine ⟨_, data[L.i], w, rfl, ⟨h1, hnext, ?_⟩, rfl, hw, hmin, Or.inr (Or.inl ⟨v, st1, by first | rfl | trivial, hvw, hb, rfl, e1, e2, rfl⟩)⟩
      intro d hd1 hd2; simp only at hd2; omega

theorem centreRun_inv (h : CentreInv O k data Inv t) (hk : 0 < k) : ∀ (m : Nat) {L : CentreLoop σ}, LoopInv k data Inv t L →
    ∃ L', centreRun O k data m L = some L' ∧ LoopInv k data Inv t L' := by
  intro m
  induction m with
  | zero => intro L hL; exact ⟨L, rfl, hL⟩
  | succ m ih =>
    intro L hL
    unfold centreRun
    split
    · obtain ⟨L', _, _, e, h1, _⟩ := centreStep_spec h hk hL
      rw [e, Option.bind_some]; exact ih h1
    · exact ⟨L, rfl, hL⟩

/-- When the loop has ended every row is settled. -/
theorem LoopInv.all_settled {L : CentreLoop σ} (hL : LoopInv k data Inv t L) (hn : data.length ≤ L.nochange) :
    ∀ r < data.length, Settled t k data L.st L.chk r := by
  intro r hr
  have hi := hL.idx
  by_cases h : r < L.i
  · have := hL.settled (L.i - r) (by omega) (by omega) (by omega)
    have e : rowBack data.length L.i (L.i - r) = r := by unfold rowBack; split <;> omega
    rwa [e] at this
  · have := hL.settled (L.i + data.length - r) (by omega) (by omega) (by omega)
    have e : rowBack data.length L.i (L.i + data.length - r) = r := by unfold rowBack; split <;> omega
    rwa [e] at this

/-! ### The result -/

theorem clusterFold_spec {α : Type} (k : Nat) (c : Nat → Nat) : ∀ (l : List (List α)) (off : Nat) (C : List (Nat → Option (List α))), C.length = k →
    (∀ i, off ≤ i → i < off + l.length → c i < k) →
    ∃ C', (l.zipIdx off).foldlM (fun (C : List (Nat → Option (List α))) (x : List α × Nat) =>
        (C[c x.2]?).map fun G => C.set (c x.2) (Function.update G x.2 (some x.1))) C = some C' ∧ C'.length = k ∧
      ∀ a G', C'[a]? = some G' → ∃ G, C[a]? = some G ∧ ∀ i, G' i = if off ≤ i ∧ i < off + l.length ∧ c i = a then l[i - off]? else G i := by
  intro l
  induction l with
  | nil =>
    intro off C hC _
    refine ⟨C, rfl, hC, fun a G' h => ⟨G', h, fun i => ?_⟩⟩
    rw [if_neg]; simp only [List.length_nil]; omega
  | cons row l ih =>
    intro off C hC hc
    have h0 := hc off (by omega) (by simp)
    have hlt : c off < C.length := by omega
    rw [List.zipIdx_cons, List.foldlM_cons]
    simp only [List.getElem?_eq_getElem hlt, Option.map_some, Option.bind_eq_bind, Option.bind_some]
    obtain ⟨C', e, h1, h2⟩ := ih (off + 1) (C.set (c off) (Function.update C[c off] off (some row))) (by simpa using hC)
      (fun i hi1 hi2 => hc i (by omega) (by simp only [List.length_cons]; omega))
    refine ⟨C', e, h1, ?_⟩
    intro a G' hG'
    obtain ⟨G, hG, h3⟩ := h2 a G' hG'
    rw [List.getElem?_set] at hG
    by_cases hca : c off = a
    · subst hca
      simp only [if_true, hlt] at hG
      have hG := Option.some.inj hG
      refine ⟨C[c off], by simp [hlt], fun i => ?_⟩
      rw [h3 i, ← hG]
      simp only [List.length_cons]
      by_cases hio : i = off
      · subst hio
        rw [if_neg (by omega), if_pos ⟨le_refl _, by omega, rfl⟩]; simp
      · rw [Function.update_of_ne hio]
        by_cases h4 : off + 1 ≤ i ∧ i < off + 1 + l.length ∧ c i = c off
        · rw [if_pos h4, if_pos ⟨by omega, by omega, h4.2.2⟩]
          have : i - off = (i - (off + 1)) + 1 := by omega
          rw [this]; simp
        · rw [if_neg h4, if_neg (fun h5 => h4 ⟨by omega, by omega, h5.2.2⟩)]
    · simp only [hca, if_false] at hG
      refine ⟨G, hG, fun i => ?_⟩
      rw [h3 i]
      simp only [List.length_cons]
      by_cases h4 : off + 1 ≤ i ∧ i < off + 1 + l.length ∧ c i = a
      · rw [if_pos h4, if_pos ⟨by omega, by omega, h4.2.2⟩]
        have : i - off = (i - (off + 1)) + 1 := by omega
        rw [this]; simp
      · rw [if_neg h4, if_neg]
        rintro ⟨h5, h6, h7⟩
        by_cases hio : i = off
        · subst hio; exact hca h7
        · exact h4 ⟨by omega, by omega, h7⟩

/-- The result of a clustering in which row `i` has the label `c i`. -/
theorem clusterFold_partition {α : Type} (k : Nat) (c : Nat → Nat) (data : List (List α)) (hc : ∀ i < data.length, c i < k) :
    ∃ C, data.zipIdx.foldlM (fun (C : List (Nat → Option (List α))) (x : List α × Nat) =>
        (C[c x.2]?).map fun G => C.set (c x.2) (Function.update G x.2 (some x.1))) (List.replicate k (fun _ => none)) = some C ∧
      PartitionsRows k data C ∧ ∀ a G, C[a]? = some G → ∀ i, G i = if i < data.length ∧ c i = a then data[i]? else none := by
  obtain ⟨C, e, h1, h2⟩ := clusterFold_spec k c data 0 (List.replicate k (fun _ => none)) (by simp) (fun i _ hi => hc i (by omega))
  have h3 : ∀ a G, C[a]? = some G → ∀ i, G i = if i < data.length ∧ c i = a then data[i]? else none := by
    intro a G hG i
    obtain ⟨G0, hG0, h⟩ := h2 a G hG
    have := List.eq_of_mem_replicate (List.mem_of_getElem? hG0)
    subst this
    rw [h i]
    simp
  refine ⟨C, e, ⟨h1, ?_, ?_⟩, h3⟩
  · intro i row hr
    have hi : i < data.length := (List.getElem?_eq_some_iff.1 hr).1
    have hci : c i < C.length := by rw [h1]; exact hc i hi
    refine ⟨c i, C[c i], List.getElem?_eq_getElem hci, ?_, ?_⟩
    · rw [h3 _ _ (List.getElem?_eq_getElem hci) i, if_pos ⟨hi, rfl⟩, hr]
    · intro c' G' hG' hne
      rw [h3 _ _ hG' i, if_neg (fun h => hne h.2.symm)]
  · intro i hi G hG
    obtain ⟨a, ha, rfl⟩ := List.getElem_of_mem hG
    rw [h3 a _ (List.getElem?_eq_getElem ha) i, hi, ite_self]

theorem buildClusters_spec (k : Nat) (data : List (List Int)) (chk : List (Option Nat)) (hc : ∀ i < data.length, ∃ v, chk.getD i none = some v ∧ v < k) :
    ∃ C, buildClusters k data chk = some C ∧ PartitionsRows k data C ∧
      ∀ a G, C[a]? = some G → ∀ i, G i = if i < data.length ∧ chk.getD i none = some a then data[i]? else none := by
  obtain ⟨C, e, h1, h2⟩ := clusterFold_partition k (fun i => (chk.getD i none).getD 0) data (fun i hi => by
    obtain ⟨v, h, hv⟩ := hc i hi; simp only [h, Option.getD_some]; exact hv)
  refine ⟨C, e, h1, ?_⟩
  intro a G hG i
  rw [h2 a G hG i]
  by_cases hi : i < data.length
  · obtain ⟨v, h, hv⟩ := hc i hi
    simp only [hi, h, true_and, Option.getD_some, Option.some.injEq]
  · simp [hi]

end Gospn
