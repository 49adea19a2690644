import Verif.Proofs.KMode
/-!
Property C79: the clusterings KMode and OldKMeans.
-/
set_option linter.unusedSectionVars false
namespace Gospn
open Spec GoFloat

/-- C79, part: for rectangular data with non-negative values, `k ≥ 1` clusters and any draw of `k` different rows, `KMode` (and `OldKMeans`, which is the same
code) never panics, whatever the number of iterations. If it returns, the result is a partition of the rows into `k` clusters, and there are `k` centres such
that every row is in the cluster of a centre nearest to it in Hamming distance. Missing: that it returns, which is false (`C79_never_returns`), and that the
centres are modes of their clusters (`C79_mean_not_mode`). -/
theorem C79_partition_partial (W k : Nat) (data : List (List Int)) (picks : List Nat) (m : Nat) (hrect : RowsOfLength W data)
    (hnn : ∀ row ∈ data, ∀ x ∈ row, 0 ≤ x) (hk : 0 < k) (hpk : picks.length = k) (hp : ∀ r ∈ picks, r < data.length) :
    ∃ r, kMode picks k data m = some r ∧ ∀ C, r = some C →
      PartitionsRows k data C ∧ ∃ centres : List (List Int), centres.length = k ∧ RowsOfLength W centres ∧ NearestCentres centres data C := by
  obtain ⟨st, chk, e, h1, h2, h3⟩ := modeInit_all hrect hnn picks ⟨[], []⟩ (List.replicate data.length none) 0 hp
    ⟨rfl, rfl, by intro j m cs h; simp at h⟩ (by simp) (by
      intro i v hv
      rw [List.getD_eq_getElem?_getD, List.getElem?_replicate] at hv
      split at hv <;> simp at hv)
  rw [Nat.zero_add, hpk] at h1 h3
  have hinv := modeCentreInv (k := k) hrect (modeBound_range hrect hnn)
  have hn : 0 < data.length := by
    cases picks with
    | nil => simp at hpk; omega
    | cons r _ => have := hp r (by simp); omega
  obtain ⟨L, e2, hL⟩ := centreRun_inv hinv hk m (L := ⟨st, chk, 0, 0⟩) ⟨⟨h1, h2, h3⟩, hn, by intro d hd1 hd2; simp only at hd2; omega⟩
  unfold kMode
  simp only [e, Option.bind_some, e2]
  split
  · exact ⟨none, rfl, by simp⟩
  · rename_i hnc
    have hset := hL.all_settled (by omega)
    obtain ⟨C, e3, h4, h5⟩ := buildClusters_spec k data L.chk (fun i hi => by obtain ⟨v, hv, hvk, _⟩ := hset i hi; exact ⟨v, hv, hvk⟩)
    rw [e3, Option.map_some]
    refine ⟨_, rfl, ?_⟩
    intro C' hC'
    have := Option.some.inj hC'
    subst this
    refine ⟨h4, L.st.means, hL.inv.1.mlen, ?_, ?_⟩
    · intro row hrow
      obtain ⟨j, hj, rfl⟩ := List.getElem_of_mem hrow
      have hj' : j < L.st.counts.length := by rw [hL.inv.1.clen, ← hL.inv.1.mlen]; exact hj
      exact (hL.inv.1.cluster j _ _ (List.getElem?_eq_getElem hj) (List.getElem?_eq_getElem hj')).mlen
    · intro i row hrow c G mean hG hne hm m' hm'
      have hi := (List.getElem?_eq_some_iff.1 hrow).1
      obtain ⟨v, hv, hvk, hmin⟩ := hset i hi
      have hGi := h5 c G hG i
      have hvc : v = c := by
        by_contra hvc
        rw [if_neg (fun h => hvc (by have := h.2; rw [hv] at this; exact Option.some.inj this))] at hGi
        exact hne hGi
      subst hvc
      obtain ⟨j, hj, rfl⟩ := List.getElem_of_mem hm'
      have := hmin row hrow j (by rw [← hL.inv.1.mlen]; exact hj)
      simp only [List.getD_eq_getElem?_getD, hm, List.getElem?_eq_getElem hj, Option.getD_some] at this
      exact_mod_cast this

example : ∃ data : List (List Int), RowsOfLength 2 data ∧ (∀ row ∈ data, ∀ x ∈ row, 0 ≤ x) ∧ ∃ picks : List Nat, picks.length = 2 ∧ picks.Nodup ∧
    (∀ r ∈ picks, r < data.length) ∧ (kMode picks 2 data 9).isSome ∧ (kMode picks 2 data 9) ≠ some none := by
  refine ⟨[[0, 0], [0, 1], [3, 3], [3, 2]], by unfold RowsOfLength; decide, by decide, [1, 2], by decide, by decide, by decide, by decide, ?_⟩
  intro h
  have h2 := congrArg (fun x => x.map Option.isSome) h
  revert h2; decide

/-- Eight rows on which the loop does not end when it starts from rows 2 and 7. -/
def loopData : List (List Int) :=
  [[1, 0, 1, 0, 0], [1, 0, 0, 0, 0], [1, 1, 1, 1, 1], [0, 0, 1, 0, 0], [0, 0, 0, 1, 0], [0, 1, 0, 0, 0], [0, 0, 0, 0, 1], [1, 1, 1, 0, 0]]

theorem centreRun_add {σ : Type} (O : CentreOps σ) (k : Nat) (data : List (List Int)) : ∀ a b M,
    (∀ q ≤ a, ∃ L', centreRun O k data q M = some L' ∧ L'.nochange < data.length) →
      centreRun O k data (a + b) M = (centreRun O k data a M).bind (centreRun O k data b) := by
  intro a
  induction a with
  | zero => intro b M _; rw [Nat.zero_add]; rfl
  | succ a ih =>
    intro b M h
    have h0 : M.nochange < data.length := by obtain ⟨L', e, h1⟩ := h 0 (by omega); cases Option.some.inj e; exact h1
    have e1 : a + 1 + b = (a + b) + 1 := by omega
    rw [e1]
    show (if M.nochange < data.length then _ else _) = _
    rw [if_pos h0]
    have e2 : centreRun O k data (a + 1) M = (centreStep O k data M).bind (centreRun O k data a) := by
      show (if M.nochange < data.length then _ else _) = _
      rw [if_pos h0]
    rw [e2]
    cases hs : centreStep O k data M with
    | none => rfl
    | some M' =>
      simp only [Option.bind_some]
      refine ih b M' (fun q hq => ?_)
      obtain ⟨L', e3, h3⟩ := h (q + 1) (by omega)
      refine ⟨L', ?_, h3⟩
      have : centreRun O k data (q + 1) M = (centreStep O k data M).bind (centreRun O k data q) := by
        show (if M.nochange < data.length then _ else _) = _
        rw [if_pos h0]
      rw [this, hs] at e3; exact e3

/-- Iterating from a state in which the loop has not ended for `p` iterations and then is back never ends. -/
theorem centreRun_cycle {σ : Type} (O : CentreOps σ) (k : Nat) (data : List (List Int)) (p : Nat) (hp : 0 < p) (L : CentreLoop σ)
    (hback : centreRun O k data p L = some L) (hgo : ∀ q ≤ p, ∃ L', centreRun O k data q L = some L' ∧ L'.nochange < data.length) :
    ∀ m, ∃ L', centreRun O k data m L = some L' ∧ L'.nochange < data.length := by
  have hadd := centreRun_add O k data
  intro m
  induction m using Nat.strong_induction_on with
  | _ m ih =>
    by_cases hm : m ≤ p
    · exact hgo m hm
    · have := hadd p (m - p) L hgo
      rw [show p + (m - p) = m by omega, hback, Option.bind_some] at this
      rw [this]
      exact ih (m - p) (by omega)

/-- The loop has not ended after `q` iterations. -/
def stillRunning (q : Nat) (M : CentreLoop ModeState) : Bool :=
  match centreRun modeOps 2 loopData q M with
  | some L' => decide (L'.nochange < loopData.length)
  | none => false

/-- From rows 2 and 7 the loop runs for seven iterations and then goes through sixteen states in a cycle. -/
def loopCheck : Bool :=
  match [2, 7].foldlM (modeInit loopData) (⟨[], []⟩, List.replicate loopData.length none, 0) with
  | none => false
  | some s => (List.range 8).all (fun q => stillRunning q ⟨s.1, s.2.1, 0, 0⟩) &&
    match centreRun modeOps 2 loopData 7 ⟨s.1, s.2.1, 0, 0⟩ with
    | none => false
    | some L => decide (centreRun modeOps 2 loopData 16 L = some L) && (List.range 17).all (fun q => stillRunning q L)

theorem loopData_cycles : loopCheck = true := by decide +kernel

/-- C79 is false: on eight rows of five binary values, with two clusters and the rows 2 and 7 drawn first, `KMode` and `OldKMeans` do not return: the loop goes
through the same sixteen states again and again. The cause is `kModeRemove`, which compares a count with a value. -/
theorem C79_never_returns : ∃ (W : Nat) (data : List (List Int)) (picks : List Nat), RowsOfLength W data ∧ (∀ row ∈ data, ∀ x ∈ row, 0 ≤ x ∧ x ≤ 1) ∧
    picks.length = 2 ∧ picks.Nodup ∧ (∀ r ∈ picks, r < data.length) ∧ ∀ m, kMode picks 2 data m = some none := by
  refine ⟨5, loopData, [2, 7], by unfold RowsOfLength; decide, by decide, by decide, by decide, by decide, ?_⟩
  have hc := loopData_cycles
  unfold loopCheck at hc
  intro m
  unfold kMode
  cases hs : [2, 7].foldlM (modeInit loopData) (⟨[], []⟩, List.replicate loopData.length none, 0) with
  | none => rw [hs] at hc; exact absurd hc (by simp)
  | some s =>
    rw [hs] at hc
    simp only [Option.bind_some]
    simp only [Bool.and_eq_true, List.all_eq_true, List.mem_range] at hc
    obtain ⟨h1, h2⟩ := hc
    have hgoes : ∀ q M, stillRunning q M = true → ∃ L', centreRun modeOps 2 loopData q M = some L' ∧ L'.nochange < loopData.length := by
      intro q M h
      unfold stillRunning at h
      cases hr : centreRun modeOps 2 loopData q M with
      | none => rw [hr] at h; exact absurd h (by simp)
      | some L' => rw [hr] at h; exact ⟨L', rfl, by simpa using h⟩
    have hall : ∃ L', centreRun modeOps 2 loopData m ⟨s.1, s.2.1, 0, 0⟩ = some L' ∧ L'.nochange < loopData.length := by
      cases h7 : centreRun modeOps 2 loopData 7 ⟨s.1, s.2.1, 0, 0⟩ with
      | none => rw [h7] at h2; exact absurd h2 (by simp)
      | some L =>
        rw [h7] at h2
        simp only [Bool.and_eq_true, List.all_eq_true, List.mem_range, decide_eq_true_eq] at h2
        have hcyc := centreRun_cycle modeOps 2 loopData 16 (by omega) L h2.1 (fun q hq => hgoes q L (h2.2 q (by omega)))
        by_cases hm : m ≤ 7
        · exact hgoes m _ (h1 m (by omega))
        · have := centreRun_add modeOps 2 loopData 7 (m - 7) _ (fun q hq => hgoes q ⟨s.1, s.2.1, 0, 0⟩ (h1 q (by omega)))
          rw [show 7 + (m - 7) = m by omega, h7, Option.bind_some] at this
          rw [this]
          exact hcyc (m - 7)
    obtain ⟨L', e, h3⟩ := hall
    rw [e, Option.bind_some, if_pos h3]

/-- After taking the row `[0]` out of a cluster that has it three times, with `[1]` once, `kModeRemove` takes 1 for the mean, although 0 remains more
frequent. -/
theorem C79_mean_not_mode : ∃ st st' : ModeState, st = ⟨[[0]], [[[3, 1]]]⟩ ∧ modeOps.remove st 0 [0] 0 = some st' ∧ st' = ⟨[[1]], [[[2, 1]]]⟩ :=
  ⟨_, _, rfl, rfl, rfl⟩

/-- With more clusters than rows there is no draw of `k` different rows: the loop that draws them does not end. -/
theorem C79_too_many_clusters (k : Nat) (data : List (List Int)) (h : data.length < k) : ¬ ∃ picks : List Nat, picks.length = k ∧ picks.Nodup ∧
    ∀ r ∈ picks, r < data.length := by
  rintro ⟨picks, h1, h2, h3⟩
  have : picks.length ≤ (List.range data.length).length := (List.subperm_of_subset h2 (fun r hr => List.mem_range.2 (h3 r hr))).length_le
  simp at this; omega

end Gospn
