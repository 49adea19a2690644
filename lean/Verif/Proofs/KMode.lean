import Verif.Proofs.Cluster
import Verif.Proofs.Learn
set_option linter.unusedSectionVars false
set_option linter.unusedSimpArgs false
/-
KMode and OldKMeans never panic on rectangular data with non-negative values.
-/
namespace Gospn
open Spec GoFloat

/-- The values of column `j` are natural numbers below `b j`. -/
def ModeInRange (b : Nat → Nat) (v : List Int) : Prop := ∀ (j : Nat) (x : Int), v[j]? = some x → 0 ≤ x ∧ x < b j

/-- Mean and counts of one cluster: a row with values in range and, for each column, as many counts as values. -/
structure ModeCluster (W : Nat) (b : Nat → Nat) (m : List Int) (cs : List (List Int)) : Prop where
  mlen : m.length = W
  clen : cs.length = W
  range : ModeInRange b m
  width : ∀ (j : Nat) (c : List Int), cs[j]? = some c → c.length = b j

theorem goIdx_of_lt {α : Type} {l : List α} {x : Int} (h0 : 0 ≤ x) (h1 : x < l.length) : ∃ a, goIdx l x = some a := by
  have : x.toNat < l.length := by omega
  exact ⟨l[x.toNat], by simp [goIdx, Int.not_lt.2 h0, this]⟩

theorem goSet_of_lt {α : Type} {l : List α} {x : Int} {a : α} (h0 : 0 ≤ x) (h1 : x < l.length) : goSet l x a = some (l.set x.toNat a) := by
  simp [goSet, h0, h1]

theorem ModeCluster.update {W : Nat} {b : Nat → Nat} {m : List Int} {cs : List (List Int)} (h : ModeCluster W b m cs) {j : Nat} {c' m' : _}
    (hc : c'.length = b j) (hm : m' = m ∨ ∃ x : Int, m' = m.set j x ∧ 0 ≤ x ∧ x < b j) : ModeCluster W b m' (cs.set j c') := by
  refine ⟨?_, by simp [h.clen], ?_, ?_⟩
  · rcases hm with rfl | ⟨x, rfl, _⟩ <;> simp [h.mlen]
  · rcases hm with rfl | ⟨x, rfl, hx⟩
    · exact h.range
    · intro i y hy
      rw [List.getElem?_set] at hy
      split at hy
      · rename_i e; subst e
        split at hy
        · cases hy; exact hx
        · cases hy
      · exact h.range i y hy
  · intro i c hi
    rw [List.getElem?_set] at hi
    split at hi
    · rename_i e; subst e
      split at hi
      · cases hi; exact hc
      · cases hi
    · exact h.width i c hi

theorem modeInsertCol_ok {W : Nat} {b : Nat → Nat} {v m : List Int} {cs : List (List Int)} (hv : ModeInRange b v) (hvl : v.length = W) (h : ModeCluster W b m cs)
    {j : Nat} (hj : j < W) : ∃ m' cs', modeInsertCol v (m, cs) j = some (m', cs') ∧ ModeCluster W b m' cs' := by
  have e1 : v[j]? = some v[j] := List.getElem?_eq_getElem (by omega)
  have e2 : cs[j]? = some (cs[j]'(by rw [h.clen]; exact hj)) := List.getElem?_eq_getElem _
  have e3 : m[j]? = some (m[j]'(by rw [h.mlen]; exact hj)) := List.getElem?_eq_getElem _
  have hx := hv j _ e1
  have hw := h.width j _ e2
  have hm := h.range j _ e3
  obtain ⟨a, ha⟩ := goIdx_of_lt (l := cs[j]'(by rw [h.clen]; exact hj)) hx.1 (by rw [hw]; exact hx.2)
  have hs := goSet_of_lt (l := cs[j]'(by rw [h.clen]; exact hj)) (a := a + 1) hx.1 (by rw [hw]; exact hx.2)
  obtain ⟨d, hd⟩ := goIdx_of_lt (l := (cs[j]'(by rw [h.clen]; exact hj)).set (v[j]).toNat (a + 1)) hm.1 (by simp only [List.length_set]; rw [hw]; exact hm.2)
  unfold modeInsertCol
  simp only [e1, e2, e3, ha, hs, hd, Option.bind_some, Option.map_some]
  refine ⟨_, _, rfl, h.update (by simp [hw]) ?_⟩
  split
  · exact Or.inr ⟨_, rfl, hx⟩
  · exact Or.inl rfl

theorem modeRescan_range (c : List Int) (hc : c ≠ []) : 0 ≤ modeRescan c ∧ modeRescan c < c.length := by
  have key : ∀ (l : List Int) (off : Nat) (mx : Int), (off = 0 → mx = -1 ∧ l ≠ []) → (0 < off → 0 ≤ mx ∧ mx < off) →
      0 ≤ (l.zipIdx off).foldl (fun mx (x : Int × Nat) => if mx < 0 ∨ mx < x.1 then (x.2 : Int) else mx) mx ∧
      (l.zipIdx off).foldl (fun mx (x : Int × Nat) => if mx < 0 ∨ mx < x.1 then (x.2 : Int) else mx) mx < off + l.length := by
    intro l
    induction l with
    | nil =>
      intro off mx h0 h1
      by_cases ho : off = 0
      · exact absurd rfl (h0 ho).2
      · have := h1 (by omega); simpa using this
    | cons y l ih =>
      intro off mx h0 h1
      rw [List.zipIdx_cons, List.foldl_cons]
      have := ih (off + 1) (if mx < 0 ∨ mx < y then (off : Int) else mx) (by omega) (fun _ => by
        split
        · omega
        · rename_i h2
          by_cases ho : off = 0
          · have := (h0 ho).1; omega
          · have := h1 (by omega); omega)
      simp only [List.length_cons]
      refine ⟨this.1, ?_⟩
      have h2 := this.2
      push_cast at h2 ⊢
      omega
  have := key c 0 (-1) (fun _ => ⟨rfl, hc⟩) (by omega)
  simpa [modeRescan] using this

theorem modeRemoveCol_ok {W : Nat} {b : Nat → Nat} {v m : List Int} {cs : List (List Int)} (hv : ModeInRange b v) (hvl : v.length = W) (h : ModeCluster W b m cs)
    {j : Nat} (hj : j < W) : ∃ m' cs', modeRemoveCol v (m, cs) j = some (m', cs') ∧ ModeCluster W b m' cs' := by
  have e1 : v[j]? = some v[j] := List.getElem?_eq_getElem (by omega)
  have e2 : cs[j]? = some (cs[j]'(by rw [h.clen]; exact hj)) := List.getElem?_eq_getElem _
  have e3 : m[j]? = some (m[j]'(by rw [h.mlen]; exact hj)) := List.getElem?_eq_getElem _
  have hx := hv j _ e1
  have hw := h.width j _ e2
  obtain ⟨a, ha⟩ := goIdx_of_lt (l := cs[j]'(by rw [h.clen]; exact hj)) hx.1 (by rw [hw]; exact hx.2)
  have hs := goSet_of_lt (l := cs[j]'(by rw [h.clen]; exact hj)) (a := a - 1) hx.1 (by rw [hw]; exact hx.2)
  unfold modeRemoveCol
  simp only [e1, e2, e3, ha, hs, Option.bind_some, Option.map_some]
  refine ⟨_, _, rfl, h.update (by simp [hw]) ?_⟩
  split
  · have hr := modeRescan_range ((cs[j]'(by rw [h.clen]; exact hj)).set (v[j]).toNat (a - 1)) (by
      intro h0
      have := congrArg List.length h0
      simp only [List.length_set, List.length_nil] at this
      omega)
    simp only [List.length_set, hw] at hr
    exact Or.inr ⟨_, rfl, hr⟩
  · exact Or.inl rfl

/-- The state of KMode: `k` clusters. -/
structure ModeInv (W : Nat) (b : Nat → Nat) (k : Nat) (st : ModeState) : Prop where
  mlen : st.means.length = k
  clen : st.counts.length = k
  cluster : ∀ (j : Nat) (m : List Int) (cs : List (List Int)), st.means[j]? = some m → st.counts[j]? = some cs → ModeCluster W b m cs

theorem modeCols_ok {W : Nat} {b : Nat → Nat} {k : Nat} {st : ModeState} (h : ModeInv W b k st) {f : List Int → List Int × List (List Int) → Nat → Option (List Int × List (List Int))}
    {v : List Int} (hf : ∀ m cs j, ModeCluster W b m cs → j < W → ∃ m' cs', f v (m, cs) j = some (m', cs') ∧ ModeCluster W b m' cs')
    {w : Nat} (hw : w < k) : ∃ st', modeCols f st w v = some st' ∧ ModeInv W b k st' := by
  have e1 : st.means[w]? = some (st.means[w]'(by rw [h.mlen]; exact hw)) := List.getElem?_eq_getElem _
  have e2 : st.counts[w]? = some (st.counts[w]'(by rw [h.clen]; exact hw)) := List.getElem?_eq_getElem _
  have hcl := h.cluster w _ _ e1 e2
  have key : ∀ (l : List Nat) (m : List Int) (cs : List (List Int)), (∀ j ∈ l, j < W) → ModeCluster W b m cs →
      ∃ r : List Int × List (List Int), l.foldlM (f v) (m, cs) = some r ∧ ModeCluster W b r.1 r.2 := by
    intro l
    induction l with
    | nil => intro m cs _ hm; exact ⟨(m, cs), rfl, hm⟩
    | cons j l ih =>
      intro m cs hl hm
      obtain ⟨m', cs', e, hm'⟩ := hf m cs j hm (hl j (by simp))
      obtain ⟨r, e', hr⟩ := ih m' cs' (fun i hi => hl i (by simp [hi])) hm'
      exact ⟨r, by rw [List.foldlM_cons, e]; exact e', hr⟩
  obtain ⟨r, e, hr⟩ := key (List.range (st.means[w]'(by rw [h.mlen]; exact hw)).length) _ _ (fun j hj => by rw [hcl.mlen] at hj; exact List.mem_range.1 hj) hcl
  unfold modeCols
  simp only [e1, e2, Option.bind_some, e, Option.map_some]
  refine ⟨_, rfl, by simp [h.mlen], by simp [h.clen], ?_⟩
  intro j m cs hm hc
  simp only [List.getElem?_set] at hm hc
  by_cases hwj : w = j
  · subst hwj
    simp only [if_true, h.mlen, h.clen, hw] at hm hc
    cases hm; cases hc; exact hr
  · simp only [hwj, if_false] at hm hc
    exact h.cluster j m cs hm hc

theorem rowDiff_le (p q : List Int) : rowDiff p q ≤ q.length := by
  unfold rowDiff
  refine (List.countP_le_length).trans ?_
  rw [List.length_zip]; omega

/-- The invariant of the loop of KMode. -/
theorem modeCentreInv {W : Nat} {b : Nat → Nat} {k : Nat} {data : List (List Int)} (hrect : RowsOfLength W data) (hr : ∀ row ∈ data, ModeInRange b row) :
    CentreInv modeOps k data (fun st chk => ModeInv W b k st ∧ chk.length = data.length ∧ ∀ i v, chk.getD i none = some v → v < k)
      (fun st j row => (rowDiff (st.means.getD j []) row : Int)) where
  len h := h.2.1
  chk h hv := h.2.2 _ _ hv
  dist := by
    intro st chk j row h hj hmem
    have e1 : st.means[j]? = some (st.means[j]'(by rw [h.1.mlen]; exact hj)) := List.getElem?_eq_getElem _
    have e2 : st.counts[j]? = some (st.counts[j]'(by rw [h.1.clen]; exact hj)) := List.getElem?_eq_getElem _
    have hcl := h.1.cluster j _ _ e1 e2
    have e3 : st.means.getD j [] = st.means[j]'(by rw [h.1.mlen]; exact hj) := by simp [List.getD_eq_getElem?_getD, e1]
    refine ⟨?_, by exact_mod_cast rowDiff_le _ _⟩
    simp only [modeOps, e1, Option.bind_some, e3]
    rw [hamming_eq _ _ (by rw [hcl.mlen, hrect row hmem])]; rfl
  insert := by
    intro st chk i row w h hrow hnone hw
    have hmem := List.mem_of_getElem? hrow
    obtain ⟨st', e, h'⟩ := modeCols_ok h.1 (fun m cs j hm hj => modeInsertCol_ok (hr row hmem) (hrect row hmem) hm hj) hw
    refine ⟨st', e, h', by simp [h.2.1], ?_⟩
    intro a v hv
    by_cases hia : i = a
    · subst hia
      have hlt : i < chk.length := by rw [h.2.1]; exact (List.getElem?_eq_some_iff.1 hrow).1
      simp [List.getD_eq_getElem?_getD, hlt] at hv; omega
    · refine h.2.2 a v ?_
      simpa [List.getD_eq_getElem?_getD, List.getElem?_set, hia] using hv
  move := by
    intro st chk i row v w h hrow hv hw hne _
    have hmem := List.mem_of_getElem? hrow
    obtain ⟨st1, e1, h1⟩ := modeCols_ok h.1 (fun m cs j hm hj => modeRemoveCol_ok (hr row hmem) (hrect row hmem) hm hj) (h.2.2 i v hv)
    obtain ⟨st', e, h'⟩ := modeCols_ok h1 (fun m cs j hm hj => modeInsertCol_ok (hr row hmem) (hrect row hmem) hm hj) hw
    refine ⟨st1, st', e1, e, h', by simp [h.2.1], ?_⟩
    intro a u hu
    by_cases hia : i = a
    · subst hia
      have hlt : i < chk.length := by rw [h.2.1]; exact (List.getElem?_eq_some_iff.1 hrow).1
      simp [List.getD_eq_getElem?_getD, hlt] at hu; omega
    · refine h.2.2 a u ?_
      simpa [List.getD_eq_getElem?_getD, List.getElem?_set, hia] using hu

/-! ### Initialisation -/

theorem columnMax_ok {W : Nat} {data : List (List Int)} (hrect : RowsOfLength W data) {j : Nat} (hj : j < W) :
    ∃ mx : Int, columnMax data j = some mx ∧ -1 ≤ mx ∧ ∀ row ∈ data, ∀ x, row[j]? = some x → x ≤ mx := by
  have key : ∀ (l : List (List Int)) (mx : Int), (∀ row ∈ l, row.length = W) → ∃ mx' : Int,
      l.foldlM (fun mx (row : List Int) => (row[j]?).map fun x => if mx < x then x else mx) mx = some mx' ∧ mx ≤ mx' ∧ ∀ row ∈ l, ∀ x, row[j]? = some x → x ≤ mx' := by
    intro l
    induction l with
    | nil => intro mx _; exact ⟨mx, rfl, le_refl _, by simp⟩
    | cons row l ih =>
      intro mx hl
      have e1 : row[j]? = some (row[j]'(by rw [hl row (by simp)]; exact hj)) := List.getElem?_eq_getElem _
      obtain ⟨mx', e, h1, h2⟩ := ih (if mx < row[j]'(by rw [hl row (by simp)]; exact hj) then row[j]'(by rw [hl row (by simp)]; exact hj) else mx) (fun r hr => hl r (by simp [hr]))
      refine ⟨mx', by rw [List.foldlM_cons, e1]; exact e, ?_, ?_⟩
      · split at h1 <;> omega
      · intro r hr x hx
        rcases List.mem_cons.1 hr with rfl | hr
        · rw [e1] at hx; cases hx
          split at h1 <;> omega
        · exact h2 r hr x hx
  obtain ⟨mx, e, h1, h2⟩ := key data (-1) hrect
  exact ⟨mx, e, h1, h2⟩

/-- The number of values of column `j`: `max+1`. -/
def modeBound (data : List (List Int)) (j : Nat) : Nat := ((columnMax data j).getD (-1) + 1).toNat

theorem modeBound_range {W : Nat} {data : List (List Int)} (hrect : RowsOfLength W data) (hnn : ∀ row ∈ data, ∀ x ∈ row, 0 ≤ x) :
    ∀ row ∈ data, ModeInRange (modeBound data) row := by
  intro row hrow j x hx
  have hj : j < W := by rw [← hrect row hrow]; exact (List.getElem?_eq_some_iff.1 hx).1
  obtain ⟨mx, e, h1, h2⟩ := columnMax_ok hrect hj
  have h3 := hnn row hrow x (List.mem_of_getElem? hx)
  have h4 := h2 row hrow x hx
  refine ⟨h3, ?_⟩
  simp only [modeBound, e, Option.getD_some]
  omega

theorem modeInit_ok {W : Nat} {data : List (List Int)} (hrect : RowsOfLength W data) (hnn : ∀ row ∈ data, ∀ x ∈ row, 0 ≤ x) {st : ModeState}
    {chk : List (Option Nat)} {c : Nat} (h : ModeInv W (modeBound data) c st) (hl : chk.length = data.length) (hc : ∀ i v, chk.getD i none = some v → v < c)
    {r : Nat} (hr : r < data.length) : ∃ st', modeInit data (st, chk, c) r = some (st', chk.set r (some c), c + 1) ∧ ModeInv W (modeBound data) (c + 1) st' ∧
      ∀ i v, (chk.set r (some c)).getD i none = some v → v < c + 1 := by
  have hrow : data[r]? = some data[r] := List.getElem?_eq_getElem hr
  have hmem : data[r] ∈ data := List.getElem_mem hr
  have hlen := hrect _ hmem
  have hmap : (List.range data[r].length).mapM (fun j => (columnMax data j).map fun mx => List.replicate (mx + 1).toNat (0 : Int)) =
      some ((List.range data[r].length).map fun j => List.replicate (modeBound data j) (0 : Int)) := by
    apply mapM_eq_some
    intro j hj
    obtain ⟨mx, e, _⟩ := columnMax_ok hrect (by rw [← hlen]; exact List.mem_range.1 hj : j < W)
    simp [modeBound, e]
  unfold modeInit
  simp only [hrow, Option.bind_some, hmap]
  have hnew : ModeInv W (modeBound data) (c + 1) ⟨st.means ++ [data[r]], st.counts ++ [(List.range data[r].length).map fun j => List.replicate (modeBound data j) (0 : Int)]⟩ := by
    refine ⟨by simp [h.mlen], by simp [h.clen], ?_⟩
    intro j m cs hm hcs
    by_cases hj : j < c
    · rw [List.getElem?_append_left (by rw [h.mlen]; exact hj)] at hm
      rw [List.getElem?_append_left (by rw [h.clen]; exact hj)] at hcs
      exact h.cluster j m cs hm hcs
    · have hjc : j = c := by
        have := (List.getElem?_eq_some_iff.1 hm).1
        simp [h.mlen] at this; omega
      subst hjc
      rw [List.getElem?_append_right (by rw [h.mlen])] at hm
      rw [List.getElem?_append_right (by rw [h.clen])] at hcs
      simp only [h.mlen, h.clen, Nat.sub_self, List.getElem?_cons_zero, Option.some.injEq] at hm hcs
      subst hm; subst hcs
      refine ⟨hlen, by simp [hlen], modeBound_range hrect hnn _ hmem, ?_⟩
      intro i cc hcc
      rw [List.getElem?_map] at hcc
      obtain ⟨a, ha, rfl⟩ := Option.map_eq_some_iff.1 hcc
      rw [List.getElem?_range] at ha
      · cases ha; simp
      · have := (List.getElem?_eq_some_iff.1 ha).1; simpa using this
  obtain ⟨st', e, h'⟩ := modeCols_ok hnew (fun m cs j hm hj => modeInsertCol_ok (modeBound_range hrect hnn _ hmem) hlen hm hj) (Nat.lt_succ_self c)
  refine ⟨st', ?_, h', ?_⟩
  · show ((modeCols modeInsertCol _ c data[r]).map _) = _
    rw [e]; rfl
  · intro i v hv
    by_cases hia : r = i
    · subst hia
      have hlt : r < chk.length := by omega
      simp [List.getD_eq_getElem?_getD, hlt] at hv; omega
    · have : v < c := hc i v (by simpa [List.getD_eq_getElem?_getD, List.getElem?_set, hia] using hv)
      omega

theorem modeInit_all {W : Nat} {data : List (List Int)} (hrect : RowsOfLength W data) (hnn : ∀ row ∈ data, ∀ x ∈ row, 0 ≤ x) :
    ∀ (picks : List Nat) (st : ModeState) (chk : List (Option Nat)) (c : Nat), (∀ r ∈ picks, r < data.length) → ModeInv W (modeBound data) c st →
      chk.length = data.length → (∀ i v, chk.getD i none = some v → v < c) →
      ∃ st' chk', picks.foldlM (modeInit data) (st, chk, c) = some (st', chk', c + picks.length) ∧ ModeInv W (modeBound data) (c + picks.length) st' ∧
        chk'.length = data.length ∧ ∀ i v, chk'.getD i none = some v → v < c + picks.length := by
  intro picks
  induction picks with
  | nil => intro st chk c _ h hl hc; exact ⟨st, chk, rfl, h, hl, hc⟩
  | cons r rs ih =>
    intro st chk c hp h hl hc
    obtain ⟨st', e, h1, h2⟩ := modeInit_ok hrect hnn h hl hc (hp r (by simp))
    obtain ⟨st2, chk2, e2, h3⟩ := ih st' (chk.set r (some c)) (c + 1) (fun x hx => hp x (by simp [hx])) h1 (by simp [hl]) h2
    refine ⟨st2, chk2, ?_, ?_⟩
    · rw [List.foldlM_cons, e]
      have : c + (r :: rs).length = c + 1 + rs.length := by simp only [List.length_cons]; omega
      rw [this]; exact e2
    · have : c + (r :: rs).length = c + 1 + rs.length := by simp only [List.length_cons]; omega
      rw [this]; exact h3

end Gospn
