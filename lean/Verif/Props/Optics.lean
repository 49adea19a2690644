import Verif.Model.Optics
import Verif.Props.Metrics
import Verif.Props.Dbscan
import Verif.Spec.Cluster
import Verif.Proofs.Lloyd
import Verif.Props.Evidence
set_option linter.unusedSectionVars false
set_option linter.unusedSimpArgs false
/-
C82: OPTICS never finds a cluster.
-/
namespace Gospn
open Spec GoFloat
variable {F : Type} [GoFloat F]

/-- The distance of rows `i` and `j` is at most `eps`. -/
def Spec.NearRows (data : List (List Int)) (eps : F) (i j : Nat) : Prop :=
  ∃ p q d, data[i]? = some p ∧ data[j]? = some q ∧ (euclidean p q : Option F) = some d ∧ le d eps = true

open Classical in
/-- Number of other rows within `eps` of row `i`. -/
noncomputable def Spec.nearCount (data : List (List Int)) (eps : F) (i : Nat) : Nat :=
  ((List.range data.length).filter fun j => decide (i ≠ j ∧ NearRows data eps i j)).length

theorem euclidean_some (p q : List Int) (h : p.length = q.length) : ∃ d, (euclidean p q : Option F) = some d := by
  unfold euclidean
  rw [foldlM_pair' (fun (s : F) a b => add s (mul (ofInt (a - b)) (ofInt (a - b)))) p q (ofInt 0) h]
  exact ⟨_, rfl⟩

open Classical in
theorem opticsNeighbours_eq {W : Nat} {data : List (List Int)} (hrect : RowsOfLength W data) (eps : F) {i : Nat} (hi : i < data.length) :
    opticsNeighbours data eps i = some ((List.range data.length).filter fun j => decide (i ≠ j ∧ NearRows data eps i j)) := by
  have hrow : data[i]? = some data[i] := List.getElem?_eq_getElem hi
  unfold opticsNeighbours
  rw [hrow, Option.bind_some]
  have key : ∀ (l : List Nat) (acc : List Nat), (∀ j ∈ l, j < data.length) → l.foldlM (fun (nset : List Nat) j =>
      if i = j then some nset else (data[j]?).bind fun q => (euclidean data[i] q : Option F).map fun d => if le d eps then nset ++ [j] else nset) acc =
      some (acc ++ l.filter fun j => decide (i ≠ j ∧ NearRows data eps i j)) := by
    intro l
    induction l with
    | nil => intro acc _; simp
    | cons j l ih =>
      intro acc hl
      have hj := hl j (by simp)
      have hrowj : data[j]? = some data[j] := List.getElem?_eq_getElem hj
      rw [List.foldlM_cons]
      by_cases hij : i = j
      · rw [if_pos hij]
        simp only [Option.bind_eq_bind, Option.bind_some]
        rw [ih _ fun a ha => hl a (by simp [ha])]
        simp [hij]
      · rw [if_neg hij]
        obtain ⟨d, hd⟩ := euclidean_some (F := F) data[i] data[j] (by rw [hrect _ (List.getElem_mem hi), hrect _ (List.getElem_mem hj)])
        simp only [hrowj, hd, Option.bind_some, Option.map_some, Option.bind_eq_bind]
        rw [ih _ fun a ha => hl a (by simp [ha])]
        have hnear : NearRows data eps i j ↔ le d eps = true := by
          constructor
          · rintro ⟨p, q, d', hp, hq, hd', hle⟩
            rw [hrow] at hp; rw [hrowj] at hq
            cases hp; cases hq
            rw [hd] at hd'; cases hd'; exact hle
          · intro hle; exact ⟨_, _, d, hrow, hrowj, hd, hle⟩
        by_cases hle : le d eps = true
        · simp [hle, hij, hnear.2 hle]
        · have : ¬ NearRows data eps i j := fun h => hle (hnear.1 h)
          simp [hle, hij, this]
  rw [key _ _ fun j hj => List.mem_range.1 hj]; simp

theorem opticsNeighbours_count {W : Nat} {data : List (List Int)} (hrect : RowsOfLength W data) (eps : F) {i : Nat} (hi : i < data.length) :
    ∃ nb, opticsNeighbours data eps i = some nb ∧ nb.length = nearCount data eps i := by
  refine ⟨_, opticsNeighbours_eq hrect eps hi, ?_⟩
  unfold nearCount
  congr!

/-- The core distance is undefined or its computation panics: half of the pointers to sort are nil. -/
theorem getCoreDist_eq (srt : List F → List F) (data : List (List Int)) (nb : List Nat) (o : Nat) (mp : Int) :
    getCoreDist srt data nb o mp = if (nb.length : Int) < mp then some pinf else none := by
  unfold getCoreDist
  split
  · rfl
  · rename_i hmp
    cases hds : nb.mapM (fun i => (data[o]?).bind fun p => (data[i]?).bind fun q => (euclidean p q : Option F)) with
    | none => rfl
    | some ds =>
      rw [Option.bind_some]
      cases nb with
      | nil =>
        have : ds = [] := by simpa using hds.symm
        subst this
        simp only [List.length_nil, List.replicate_zero, List.map_nil, List.append_nil, sortDists]
        simp only [Nat.lt_irrefl, List.length_nil, Nat.zero_lt_succ, if_true, Option.bind_some]
        have : goIdx ([] : List (Option F)) (mp - 1) = none := by unfold goIdx; simp
        rw [this]; rfl
      | cons i nb =>
        have hnone : sortDists srt (List.replicate (i :: nb).length none ++ ds.map some) = none := by
          unfold sortDists
          have hlen : ds.length = (i :: nb).length := mapM_length hds
          rw [if_neg (by simp [hlen]; omega)]
          rw [List.length_cons, List.replicate_succ, List.cons_append, List.mapM_cons]
          rfl
        rw [hnone]; rfl

theorem optics_fold {W : Nat} {data : List (List Int)} (hrect : RowsOfLength W data) (srt : List F → List F)
    (rest : OpticsState F → Nat → List Nat → Option (OpticsState F)) (eps : F) (mp : Int) (hinf : eq (pinf : F) pinf = true) : ∀ t ≤ data.length,
    (∀ i < t, (nearCount data eps i : Int) < mp) →
    (List.range t).foldlM (fun (st : OpticsState F) i => (st.vst[i]?).bind fun v => if v then some st else opticsExpand srt rest data eps mp st i)
      ⟨List.replicate data.length false, List.replicate data.length pinf, List.replicate data.length pinf, []⟩ =
    some ⟨(List.range data.length).map fun i => decide (i < t), List.replicate data.length pinf, List.replicate data.length pinf, List.range t⟩ := by
  intro t
  induction t with
  | zero =>
    intro _ _
    simp only [List.range_zero, List.foldlM_nil, Nat.not_lt_zero, decide_false, List.map_const', List.length_range]
    rfl
  | succ t ih =>
    intro ht hc
    rw [List.range_succ, List.foldlM_append, ih (by omega) fun i hi => hc i (by omega)]
    simp only [Option.bind_eq_bind, Option.bind_some, List.foldlM_cons, List.foldlM_nil]
    have hv : ((List.range data.length).map fun i => decide (i < t))[t]? = some false := by simp [show t < data.length by omega]
    obtain ⟨nb, hn, hnb⟩ := opticsNeighbours_count hrect eps (show t < data.length by omega)
    have hcore := getCoreDist_eq srt data nb t mp
    rw [if_pos (by rw [hnb]; exact hc t (by omega))] at hcore
    rw [hv]
    simp only [Option.bind_some, Bool.false_eq_true, if_false]
    unfold opticsExpand
    rw [hn, Option.bind_some, hcore, Option.bind_some]
    simp only [hinf, if_true, Option.bind_some]
    show some _ = some _
    congr 2
    · rw [set_map_range]
      apply List.map_congr_left
      intro i _
      by_cases hi : i = t
      · subst hi; simp
      · have : i < t + 1 ↔ i < t := by omega
        simp [Function.update_apply, hi, this]
    · apply List.ext_getElem
      · simp
      · intro a h1 h2; simp [List.getElem_set]
    · apply List.ext_getElem
      · simp
      · intro a h1 h2; simp [List.getElem_set]

theorem opticsExtract_fold (n : Nat) (eps : F) (st : OpticsState F) (hr : st.rdist = List.replicate n pinf) (hc : st.cdist = List.replicate n pinf)
    (hcmp : lt eps (pinf : F) = true → le (pinf : F) eps = false) : ∀ (l acc : List Nat), (∀ o ∈ l, o < n) →
    l.foldlM (extractStep st eps) (0, [acc]) = some (0, [acc ++ l]) := by
  intro l
  induction l with
  | nil => intro acc _; simp
  | cons o l ih =>
    intro acc hl
    have ho := hl o (by simp)
    have hstep : extractStep st eps (0, [acc]) o = some (0, [acc ++ [o]]) := by
      unfold extractStep
      rw [hr, hc]
      simp only [List.getElem?_replicate, if_pos ho, Option.bind_some]
      split
      · rename_i hlt
        simp [hcmp hlt]
      · simp
    rw [List.foldlM_cons, hstep]
    simp only [Option.bind_eq_bind, Option.bind_some]
    rw [ih _ fun a ha => hl a (by simp [ha])]
    simp

/-- If no row has `mp` other rows within `eps`, OPTICS returns one map with all rows (the noise); otherwise it panics. The comparisons used are those of
IEEE-754: infinity equals itself, and what is below infinity is not at least infinity.
Missing: clusters. The claim that rows in dense regions end up in clusters is false (`C82_core_panics`). -/
theorem C82_optics_partial (W : Nat) (data : List (List Int)) (srt : List F → List F) (rest : OpticsState F → Nat → List Nat → Option (OpticsState F)) (eps : F) (mp : Int)
    (hrect : RowsOfLength W data) (hinf : eq (pinf : F) pinf = true) (hcmp : lt eps (pinf : F) = true → le (pinf : F) eps = false)
    (hc : ∀ i < data.length, (nearCount data eps i : Int) < mp) :
    ∃ G, optics srt rest data eps mp = some [G] ∧ ∀ z, G z = data[z]? := by
  unfold optics
  rw [optics_fold hrect srt rest eps mp hinf data.length (le_refl _) hc, Option.bind_some]
  unfold opticsExtract
  rw [opticsExtract_fold data.length eps _ rfl rfl hcmp _ _ fun o ho => List.mem_range.1 ho, Option.map_some]
  refine ⟨_, rfl, ?_⟩
  have key : ∀ (l : List Nat) (G : Nat → Option (List Int)) (z : Nat), l.foldl (fun (G : Nat → Option (List Int)) o => fun z => if z = o then data[o]? else G z) G z =
      if z ∈ l then data[z]? else G z := by
    intro l
    induction l with
    | nil => intro G z; simp
    | cons o l ih =>
      intro G z
      rw [List.foldl_cons, ih]
      by_cases h1 : z ∈ l
      · simp [h1]
      · by_cases h2 : z = o
        · subst h2; simp
        · simp [h1, h2]
  intro z
  rw [List.nil_append]
  refine (key _ _ z).trans ?_
  by_cases hz : z < data.length
  · simp [hz]
  · simp [hz]

/-- If some row has at least `mp` other rows within `eps` (a core point), OPTICS panics. -/
theorem C82_core_panics (W : Nat) (data : List (List Int)) (srt : List F → List F) (rest : OpticsState F → Nat → List Nat → Option (OpticsState F)) (eps : F) (mp : Int)
    (hrect : RowsOfLength W data) (hinf : eq (pinf : F) pinf = true) (hc : ∃ i < data.length, mp ≤ (nearCount data eps i : Int)) :
    optics srt rest data eps mp = none := by
  classical
  have hfind := Nat.find_spec hc
  have hmin : ∀ i < Nat.find hc, (nearCount data eps i : Int) < mp := by
    intro i hi
    have := Nat.find_min hc hi
    push_neg at this
    exact this (by omega)
  generalize Nat.find hc = t at hfind hmin
  obtain ⟨ht, hcore⟩ := hfind
  unfold optics
  have hsplit : List.range data.length = List.range t ++ (t :: (List.range (data.length - t - 1)).map fun j => t + (j + 1)) := by
    have e1 : data.length = t + ((data.length - t - 1) + 1) := by omega
    conv_lhs => rw [e1, List.range_add, List.range_succ_eq_map]
    simp [List.map_map, Function.comp_def]
  rw [hsplit, List.foldlM_append, optics_fold hrect srt rest eps mp hinf t (by omega) hmin]
  simp only [Option.bind_eq_bind, Option.bind_some, List.foldlM_cons]
  have hv : ((List.range data.length).map fun i => decide (i < t))[t]? = some false := by simp [ht]
  obtain ⟨nb, hn, hnb⟩ := opticsNeighbours_count hrect eps ht
  have hcore' := getCoreDist_eq srt data nb t mp
  rw [if_neg (by rw [hnb]; exact not_lt.2 hcore)] at hcore'
  rw [hv]
  simp only [Option.bind_some, Bool.false_eq_true, if_false]
  unfold opticsExpand
  rw [hn, Option.bind_some, hcore']
  rfl

/-- Two equal rows and `mp = 1`: a core point in every sense, and a panic. -/
noncomputable example : (RowsOfLength 1 [[0], [0]] ∧ eq (XR.pinf) pinf = true ∧ (∀ eps : XR, lt eps XR.pinf = true → le XR.pinf eps = false)) ∧
    (1 : Int) ≤ (nearCount [[0], [0]] (XR.fin 1) 0 : Int) := by
  refine ⟨⟨by intro r hr; fin_cases hr <;> rfl, by simp [XR.eq], ?_⟩, ?_⟩
  · intro eps h
    cases eps <;> simp_all [XR.lt, XR.eq]
  · have : NearRows [[0], [0]] (XR.fin 1) 0 1 := by
      refine ⟨[0], [0], _, rfl, rfl, euclidean_eq [0] [0] rfl, ?_⟩
      simp [sqDiffs, XR.lt]
    unfold nearCount
    have h2 : List.range ([[0], [0]] : List (List Int)).length = [0, 1] := rfl
    rw [h2]
    simp [this]

end Gospn
