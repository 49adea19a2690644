/-
The loop of DBSCAN: it ends, and the sets it builds.
-/
import Verif.Model.Matrix
import Verif.Proofs.IndepGraph
import Mathlib.Data.Finset.Card
import Mathlib.Data.Finset.Image
import Mathlib.Tactic.Ring
import Mathlib.Tactic.Linarith

set_option linter.unusedSectionVars false
set_option linter.unusedSimpArgs false

namespace Gospn
open Spec

variable {near : Nat → Nat → Bool}

/-- The number of other points near `p`. -/
def degree (near : Nat → Nat → Bool) (n p : Nat) : Nat := ((List.range n).filter fun i => decide (i ≠ p ∧ near p i)).length

theorem neighbours_spec {u : UF} {root : Nat → Nat} {pairs : List (Nat × Nat)} (h : UFOk u root pairs) {p : Nat} (hp : p < u.size) :
    ∃ u', neighbours near u.size p u = some (u', (List.range u.size).filter fun i => decide ((i ≠ p ∧ near p i) ∧ root i ≠ root p)) ∧
      UFOk u' root pairs ∧ u'.size = u.size ∧ u'.varid = u.varid := by
  have aux : ∀ (l : List Nat), (∀ i ∈ l, i < u.size) → ∀ (v : UF) (acc : List Nat), UFOk v root pairs → v.size = u.size → v.varid = u.varid →
      ∃ v', l.foldlM (fun (st : UF × List Nat) i =>
        if i ≠ p ∧ near p i then
          (st.1.find i).bind fun (u1, a) => (u1.find p).bind fun (u2, b) => some (u2, if a ≠ b then st.2 ++ [i] else st.2)
        else some st) (v, acc) = some (v', acc ++ l.filter fun i => decide ((i ≠ p ∧ near p i) ∧ root i ≠ root p)) ∧
        UFOk v' root pairs ∧ v'.size = u.size ∧ v'.varid = u.varid := by
    intro l
    induction l with
    | nil => intro _ v acc h1 h2 h3; exact ⟨v, by simp, h1, h2, h3⟩
    | cons i l ih =>
      intro hl v acc h1 h2 h3
      have hi := hl i (by simp)
      rw [List.foldlM_cons]
      by_cases hc : i ≠ p ∧ near p i
      · obtain ⟨p1, e1, o1⟩ := h1.find (x := i) (by omega)
        obtain ⟨p2, e2, o2⟩ := o1.find (x := p) (show p < v.size by omega)
        rw [if_pos hc]
        simp only [e1, Option.bind_some, e2, bind]
        obtain ⟨v', g1, g2⟩ := ih (fun j hj => hl j (by simp [hj])) _ (if root i ≠ root p then acc ++ [i] else acc) o2 h2 h3
        refine ⟨v', ?_, g2⟩
        refine g1.trans ?_
        congr 2
        rw [List.filter_cons]
        by_cases hr : root i = root p
        · simp [hr]
        · rw [if_pos hr, if_pos (by simp only [decide_eq_true_eq]; exact ⟨hc, hr⟩)]
          simp
      · rw [if_neg hc]
        simp only [bind, Option.bind_some]
        obtain ⟨v', g1, g2⟩ := ih (fun j hj => hl j (by simp [hj])) v acc h1 h2 h3
        refine ⟨v', g1.trans ?_, g2⟩
        rw [List.filter_cons, if_neg (by simp only [decide_eq_true_eq]; exact fun h => hc h.1)]
  obtain ⟨v', g1, g2⟩ := aux (List.range u.size) (fun i hi => List.mem_range.1 hi) u [] h rfl rfl
  exact ⟨v', by simpa [neighbours] using g1, g2⟩

theorem absorb_spec {p : Nat} : ∀ (nbh : List Nat) (st : ScanState) (root : Nat → Nat) (pairs : List (Nat × Nat)), UFOk st.uf root pairs → p < st.uf.size →
    (∀ q ∈ nbh, q < st.uf.size) →
    ∃ st' root', absorb p nbh st = some st' ∧ UFOk st'.uf root' (pairs ++ nbh.map fun q => (p, q)) ∧ st'.uf.size = st.uf.size ∧ st'.uf.varid = st.uf.varid ∧
      st'.queue = st.queue ++ nbh ∧ st'.vindex = st.vindex ∧ (∀ i, st'.vst i = true → st.vst i = true ∨ i = p ∨ i ∈ nbh) ∧ (∀ i, st.vst i = true → st'.vst i = true) := by
  intro nbh
  induction nbh with
  | nil => intro st root pairs h _ _; exact ⟨st, root, rfl, by simpa using h, rfl, rfl, by simp, rfl, fun _ h => Or.inl h, by simp⟩
  | cons q nbh ih =>
    intro st root pairs h hp hn
    obtain ⟨u', res, root', e1, e2, e3, e4, _⟩ := h.union hp (hn q (by simp))
    obtain ⟨st', root'', g1, g2, g3, g4, g5, g6, g7, g8⟩ := ih { st with uf := u', vst := setAt (setAt st.vst p true) q true, queue := st.queue ++ [q] } root' _ e2
      (by simpa [e3] using hp) (by intro z hz; simpa [e3] using hn z (by simp [hz]))
    refine ⟨st', root'', ?_, ?_, g3.trans e3, g4.trans e4, ?_, g6, ?_, ?_⟩
    · unfold absorb at g1 ⊢
      rw [List.foldlM_cons, e1]
      exact g1
    · simpa using g2
    · rw [g5]; simp
    · intro i hi
      rcases g7 i hi with h | h | h
      · by_cases h1 : i = q
        · simp [h1]
        · by_cases h2 : i = p
          · simp [h2]
          · simp only [setAt, h1, h2, if_false] at h
            exact Or.inl h
      · exact Or.inr (Or.inl h)
      · simp [h]
    · intro i hi
      apply g8
      by_cases h1 : i = q <;> by_cases h2 : i = p <;> simp [setAt, h1, h2, hi]

theorem select_spec (n : Nat) (st : ScanState) (hv : st.vindex ≤ n) :
    ∃ l v', select n st = { st with queue := st.queue ++ l, vindex := v' } ∧ st.vindex ≤ v' ∧ v' ≤ n ∧ l.length + st.vindex ≤ v' ∧
      (∀ i ∈ l, i < n) ∧ (∀ i, st.vindex ≤ i → i < n → st.vst i = false → i ∈ l) ∧ (∀ i, v' ≤ i → i < n → st.vst i = true) := by
  have aux : ∀ (k : Nat), ∃ l v', (List.range' st.vindex k).foldl (fun (st : ScanState) i =>
      if st.vst i = false then { st with queue := st.queue ++ [i], vindex := i + 1 } else st) st = { st with queue := st.queue ++ l, vindex := v' } ∧
      st.vindex ≤ v' ∧ v' ≤ st.vindex + k ∧ l.length + st.vindex ≤ v' ∧ (∀ i ∈ l, i < st.vindex + k) ∧ (∀ i, st.vindex ≤ i → i < st.vindex + k → st.vst i = false → i ∈ l) ∧
      (∀ i, v' ≤ i → i < st.vindex + k → st.vst i = true) := by
    intro k
    induction k with
    | zero => exact ⟨[], st.vindex, by simp, le_refl _, by omega, by simp, by simp, by intros; omega, by intros; omega⟩
    | succ k ih =>
      obtain ⟨l, v', h1, h2, h3, h4, h5, h6, h7⟩ := ih
      rw [List.range'_concat, List.foldl_append, h1]
      simp only [Nat.one_mul, List.foldl_cons, List.foldl_nil]
      by_cases hc : st.vst (st.vindex + k) = false
      · rw [if_pos hc]
        refine ⟨l ++ [st.vindex + k], st.vindex + k + 1, by simp, by omega, by omega, by simp; omega, ?_, ?_, ?_⟩
        · intro i hi
          rcases List.mem_append.1 hi with hi | hi
          · have := h5 i hi; omega
          · simp at hi; omega
        · intro i hi hik hvi
          by_cases he : i = st.vindex + k
          · simp [he]
          · simp [h6 i hi (by omega) hvi]
        · intro i hi hik; omega
      · rw [if_neg hc]
        refine ⟨l, v', rfl, h2, by omega, h4, ?_, ?_, ?_⟩
        · intro i hi; have := h5 i hi; omega
        · intro i hi hik hvi
          by_cases he : i = st.vindex + k
          · rw [he] at hvi; exact absurd hvi hc
          · exact h6 i hi (by omega) hvi
        · intro i hi hik
          by_cases he : i = st.vindex + k
          · rw [he]; simpa using hc
          · exact h7 i hi (by omega)
  obtain ⟨l, v', h1, h2, h3, h4, h5, h6, h7⟩ := aux (n - st.vindex)
  have hn : st.vindex + (n - st.vindex) = n := by omega
  rw [hn] at h3 h5 h6 h7
  exact ⟨l, v', h1, h2, h3, h4, h5, h6, h7⟩

/-- The number of sets. -/
def classes (n : Nat) (root : Nat → Nat) : Nat := ((Finset.range n).image root).card

theorem classes_le {n : Nat} {root : Nat → Nat} : classes n root ≤ n := by
  simpa [classes] using Finset.card_image_le (s := Finset.range n) (f := root)

/-- New links make fewer sets. -/
theorem classes_lt {u u' : UF} {root root' : Nat → Nat} {pairs pairs' : List (Nat × Nat)} (h : UFOk u root pairs) (h' : UFOk u' root' pairs') (hs : u'.size = u.size)
    (hsub : ∀ x ∈ pairs, x ∈ pairs') : classes u.size root' ≤ classes u.size root ∧
      ((∃ x y, x < u.size ∧ y < u.size ∧ root x ≠ root y ∧ root' x = root' y) → classes u.size root' < classes u.size root) := by
  have hroot : ∀ x < u.size, root' (root x) = root' x := by
    intro x hx
    have hr := h.forest.root_lt x hx
    rw [h'.conn (root x) (by omega) x (by omega)]
    refine Connected.mono hsub ?_
    rw [← h.conn (root x) hr x hx]
    exact h.forest.root_root hx
  have himg : (Finset.range u.size).image root' = ((Finset.range u.size).image root).image root' := by
    ext z
    simp only [Finset.mem_image, Finset.mem_range]
    constructor
    · rintro ⟨x, hx, rfl⟩
      exact ⟨root x, ⟨x, hx, rfl⟩, hroot x hx⟩
    · rintro ⟨y, ⟨x, hx, rfl⟩, rfl⟩
      exact ⟨x, hx, (hroot x hx).symm⟩
  unfold classes
  rw [himg]
  refine ⟨Finset.card_image_le, ?_⟩
  rintro ⟨x, y, hx, hy, hne, he⟩
  refine lt_of_le_of_ne Finset.card_image_le ?_
  rw [Ne, Finset.card_image_iff]
  intro hinj
  apply hne
  apply hinj
  · simp only [Finset.coe_image, Set.mem_image, Finset.coe_range, Set.mem_Iio]; exact ⟨x, hx, rfl⟩
  · simp only [Finset.coe_image, Set.mem_image, Finset.coe_range, Set.mem_Iio]; exact ⟨y, hy, rfl⟩
  · rw [hroot x hx, hroot y hy, he]

/-- What holds whenever the loop condition is tested. -/
structure ScanInv (near : Nat → Nat → Bool) (n : Nat) (mp : Int) (st : ScanState) (root : Nat → Nat) (pairs : List (Nat × Nat)) (done : Nat → Prop) : Prop where
  ok : UFOk st.uf root pairs
  size : st.uf.size = n
  varid : ∀ i < n, st.uf.varid i = (i : Int)
  queue_lt : ∀ q ∈ st.queue, q < n
  vindex_le : st.vindex ≤ n
  linked : ∀ x ∈ pairs, near x.1 x.2 = true ∧ mp ≤ (degree near n x.1 : Int)
  cover : ∀ i < n, i ∈ st.queue ∨ done i ∨ (st.vst i = false ∧ st.vindex ≤ i)
  finished : st.queue = [] → ∀ i, st.vindex ≤ i → i < n → st.vst i = true
  complete : mp ≤ 1 → ∀ i < n, done i → ∀ j < n, near i j = true → Connected pairs i j

theorem scanLoop_spec {n : Nat} {mp : Int} : ∀ (fuel : Nat) (st : ScanState) (root : Nat → Nat) (pairs : List (Nat × Nat)) (done : Nat → Prop),
    ScanInv near n mp st root pairs done → st.queue.length + n * classes n root + (n - st.vindex) < fuel →
    ∃ u root' pairs', scanLoop near n mp fuel st = some u ∧ UFOk u root' pairs' ∧ u.size = n ∧ (∀ i < n, u.varid i = (i : Int)) ∧ (∀ x ∈ pairs', near x.1 x.2 = true ∧ mp ≤ (degree near n x.1 : Int)) ∧
      (mp ≤ 1 → ∀ i < n, ∀ j < n, near i j = true → Connected pairs' i j) := by
  intro fuel
  induction fuel with
  | zero => intro st root pairs done _ h; omega
  | succ fuel ih =>
    intro st root pairs done hI hfuel
    unfold scanLoop
    cases hq : st.queue with
    | nil =>
      refine ⟨st.uf, root, pairs, rfl, hI.ok, hI.size, hI.varid, hI.linked, ?_⟩
      intro hmp i hi j hj hij
      refine hI.complete hmp i hi ?_ j hj hij
      rcases hI.cover i hi with h | h | h
      · rw [hq] at h; simp at h
      · exact h
      · have := hI.finished hq i h.2 hi
        rw [this] at h; simp at h
    | cons p rest =>
      have hp : p < n := hI.queue_lt p (by simp [hq])
      have hps : p < st.uf.size := by rw [hI.size]; exact hp
      obtain ⟨u1, e1, o1, s1, v1⟩ := neighbours_spec (near := near) hI.ok hps
      rw [hI.size] at e1 s1
      simp only [e1, Option.bind_some]
      generalize hN : ((List.range n).filter fun i => decide ((i ≠ p ∧ near p i) ∧ root i ≠ root p)) = nbh
      have hmem : ∀ i, i ∈ nbh ↔ i < n ∧ (i ≠ p ∧ near p i = true) ∧ root i ≠ root p := by
        intro i; rw [← hN, List.mem_filter, List.mem_range, decide_eq_true_eq]
      have hlen : nbh.length + 1 ≤ n := by
        have : nbh.length < n := by
          rw [← hN]
          conv_rhs => rw [← List.length_range (n := n)]
          refine List.length_filter_lt_length_iff_exists.2 ⟨p, List.mem_range.2 hp, by simp⟩
        omega
      have hdeg : nbh.length ≤ degree near n p := by
        rw [← hN]
        unfold degree
        apply List.Sublist.length_le
        apply List.monotone_filter_right
        intro i hi
        simp only [decide_eq_true_eq] at hi ⊢
        exact hi.1
      -- the state before looking for the next region
      have hmid : ∃ st2 root2 pairs2, (if mp ≤ (nbh.length : Int) then absorb p nbh { st with uf := u1, queue := rest } else some { st with uf := u1, queue := rest }) = some st2 ∧
          UFOk st2.uf root2 pairs2 ∧ st2.uf.size = n ∧ (∀ i < n, st2.uf.varid i = (i : Int)) ∧ (∀ q ∈ st2.queue, q < n) ∧ st2.vindex = st.vindex ∧
          (∀ x ∈ pairs2, near x.1 x.2 = true ∧ mp ≤ (degree near n x.1 : Int)) ∧ (∀ x ∈ pairs, x ∈ pairs2) ∧ (∀ i < n, i ∈ st2.queue ∨ (done i ∨ i = p) ∨ (st2.vst i = false ∧ st2.vindex ≤ i)) ∧
          (mp ≤ 1 → ∀ j < n, near p j = true → Connected pairs2 p j) ∧
          st2.queue.length + n * classes n root2 ≤ rest.length + n * classes n root := by
        have hcov : ∀ i < n, i ∈ rest ∨ (done i ∨ i = p) ∨ (st.vst i = false ∧ st.vindex ≤ i) := by
          intro i hi
          rcases hI.cover i hi with h | h | h
          · rw [hq] at h
            rcases List.mem_cons.1 h with h | h
            · exact Or.inr (Or.inl (Or.inr h))
            · exact Or.inl h
          · exact Or.inr (Or.inl (Or.inl h))
          · exact Or.inr (Or.inr h)
        have hrest : ∀ q ∈ rest, q < n := fun q hqm => hI.queue_lt q (by simp [hq, hqm])
        have hsame : ∀ j < n, near p j = true → j ∉ nbh → Connected pairs p j := by
          intro j hj hnj hm
          by_cases hjp : j = p
          · subst hjp; exact .refl _
          · have : root j = root p := by
              by_contra hr
              exact hm ((hmem j).2 ⟨hj, ⟨hjp, hnj⟩, hr⟩)
            exact (hI.ok.conn p hps j (by rw [hI.size]; exact hj)).1 this.symm
        by_cases hmp : mp ≤ (nbh.length : Int)
        · rw [if_pos hmp]
          obtain ⟨st2, root2, g1, g2, g3, g4, g5, g6, g7, g8⟩ := absorb_spec (p := p) nbh { st with uf := u1, queue := rest } root pairs o1 (by simpa [s1] using hp) (by
            intro q hqm; simpa [s1] using ((hmem q).1 hqm).1)
          simp only at g3 g4 g5 g6 g7 g8
          refine ⟨st2, root2, _, g1, g2, by omega, ?_, ?_, g6, ?_, ?_, ?_, ?_, ?_⟩
          · intro i hi; rw [g4, v1]; exact hI.varid i hi
          · intro q hqm
            rw [g5] at hqm
            rcases List.mem_append.1 hqm with h | h
            · exact hrest q h
            · exact ((hmem q).1 h).1
          · intro x hx
            rcases List.mem_append.1 hx with h | h
            · exact hI.linked x h
            · obtain ⟨q, hqm, rfl⟩ := List.mem_map.1 h
              exact ⟨((hmem q).1 hqm).2.1.2, by show mp ≤ (degree near n p : Int); omega⟩
          · intro x hx; exact List.mem_append_left _ hx
          · intro i hi
            rw [g5]
            rcases hcov i hi with h | h | h
            · exact Or.inl (List.mem_append_left _ h)
            · exact Or.inr (Or.inl h)
            · by_cases hv : st2.vst i = true
              · rcases g7 i hv with h' | h' | h'
                · rw [h.1] at h'; simp at h'
                · exact Or.inr (Or.inl (Or.inr h'))
                · exact Or.inl (List.mem_append_right _ h')
              · exact Or.inr (Or.inr ⟨by simpa using hv, by rw [g6]; exact h.2⟩)
          · intro _ j hj hnj
            by_cases hjn : j ∈ nbh
            · exact .rel _ _ (List.mem_append_right _ (List.mem_map.2 ⟨j, hjn, rfl⟩))
            · exact Connected.mono (fun x hx => List.mem_append_left _ hx) (hsame j hj hnj hjn)
          · obtain ⟨c1, c2⟩ := classes_lt hI.ok g2 (by rw [hI.size]; omega) (fun x hx => List.mem_append_left _ hx)
            rw [hI.size] at c1 c2
            rw [g5, List.length_append]
            cases hnb : nbh with
            | nil =>
              have := Nat.mul_le_mul_left n c1
              simp; omega
            | cons q nbh' =>
              have hqm : q ∈ nbh := by simp [hnb]
              have hq3 := (hmem q).1 hqm
              have hlt := c2 ⟨p, q, hp, hq3.1, fun h => hq3.2.2 h.symm, (g2.conn p (by omega) q (by omega)).2 (.rel _ _ (List.mem_append_right _ (List.mem_map.2 ⟨q, hqm, rfl⟩)))⟩
              have h3 := Nat.mul_le_mul_left n (show classes n root2 + 1 ≤ classes n root from hlt)
              rw [Nat.mul_add, Nat.mul_one] at h3
              rw [← hnb]
              omega
        · rw [if_neg hmp]
          refine ⟨_, root, pairs, rfl, o1, s1, ?_, hrest, rfl, hI.linked, fun _ h => h, hcov, ?_, le_refl _⟩
          · intro i hi; rw [v1]; exact hI.varid i hi
          · intro hmp1 j hj hnj
            refine hsame j hj hnj fun hjn => hmp ?_
            have : 0 < nbh.length := List.length_pos_of_mem hjn
            omega
      obtain ⟨st2, root2, pairs2, m1, m2, m3, m4, m5, m6, m7, m8, m9, m10, m11⟩ := hmid
      rw [m1]
      simp only [Option.bind_some]
      have hv2 : st2.vindex ≤ n := by rw [m6]; exact hI.vindex_le
      have hcomp : mp ≤ 1 → ∀ i < n, (done i ∨ i = p) → ∀ j < n, near i j = true → Connected pairs2 i j := by
        intro hmp i hi hd j hj hij
        rcases hd with hd | rfl
        · exact Connected.mono m8 (hI.complete hmp i hi hd j hj hij)
        · exact m10 hmp j hj hij
      rw [hq, List.length_cons] at hfuel
      have hvle := hI.vindex_le
      by_cases he : st2.queue = []
      · rw [if_pos he]
        obtain ⟨l, v', s1', s2', s3', s4', s5', s6', s7'⟩ := select_spec n st2 hv2
        rw [he, List.nil_append] at s1'
        refine ih (select n st2) root2 pairs2 (fun i => done i ∨ i = p) ⟨?_, ?_, ?_, ?_, ?_, m7, ?_, ?_, hcomp⟩ ?_
        · rw [s1']; exact m2
        · rw [s1']; exact m3
        · rw [s1']; exact m4
        · rw [s1']; exact s5'
        · rw [s1']; exact s3'
        · intro i hi
          rw [s1']
          rcases m9 i hi with h | h | h
          · rw [he] at h; simp at h
          · exact Or.inr (Or.inl h)
          · exact Or.inl (s6' i h.2 hi h.1)
        · rw [s1']
          intro _ i hi hin
          exact s7' i hi hin
        · rw [s1']
          simp only
          rw [he] at m11
          simp only [List.length_nil] at m11
          omega
      · rw [if_neg he]
        refine ih st2 root2 pairs2 (fun i => done i ∨ i = p) ⟨m2, m3, m4, m5, hv2, m7, m9, fun h => absurd h he, hcomp⟩ ?_
        rw [m6]
        omega

/-- The result of `dbscanInternal`. -/
theorem scan_spec {n : Nat} (mp : Int) (hn : 0 < n) :
    ∃ u root pairs, scan near n mp = some u ∧ UFOk u root pairs ∧ u.size = n ∧ u.ids = (List.range n).map (fun (i : Nat) => (i : Int)) ∧ (∀ x ∈ pairs, near x.1 x.2 = true ∧ mp ≤ (degree near n x.1 : Int)) ∧
      (mp ≤ 1 → ∀ i < n, ∀ j < n, near i j = true → Connected pairs i j) := by
  obtain ⟨root, h1, h2⟩ := makeAll_spec ((List.range n).map fun (i : Nat) => (i : Int))
  have hs : (makeAll ((List.range n).map fun (i : Nat) => (i : Int))).size = n := by
    rw [← UF.size_ids, h2]; simp
  have hv : ∀ i < n, (makeAll ((List.range n).map fun (i : Nat) => (i : Int))).varid i = (i : Int) := by
    intro i hi
    refine (UF.ids_get (u := makeAll ((List.range n).map fun (i : Nat) => (i : Int))) (i := i) ?_).2
    rw [h2]
    simp [hi]
  obtain ⟨u, root', pairs', g1, g2, g3, g4, g5, g6⟩ := scanLoop_spec (near := near) (mp := mp) (n * n + n + 2)
    ⟨makeAll ((List.range n).map fun (i : Nat) => (i : Int)), fun _ => false, 0, [0]⟩ root [] (fun _ => False)
    ⟨h1, hs, hv, by simp [hn], by simp, by simp, by simp, by simp, by simp⟩ (by
      have h3 := Nat.mul_le_mul_left n (classes_le (n := n) (root := root))
      simp only [List.length_singleton, Nat.sub_zero]
      omega)
  refine ⟨u, root', pairs', g1, g2, g3, ?_, g5, g6⟩
  unfold UF.ids
  rw [g3]
  apply List.map_congr_left
  intro i hi
  exact g4 i (List.mem_range.1 hi)

end Gospn
