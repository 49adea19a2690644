import Verif.Proofs.LearnHard
import Verif.Props.LearnShape
/-
Lemmas about the hard discriminative learning loops.
-/
set_option linter.unusedSectionVars false
set_option linter.unusedSimpArgs false
namespace Gospn
open Spec GoFloat

section Apply
variable {ι F : Type} [DecidableEq ι] [GoFloat F] [Fintype ι]

/-- `applyHDGD` does to the differences what `applyFastHGD` does to counts, if all nodes in the tables are sum nodes. -/
theorem applyHDGD_eq (N : Net ι F) (f : F → F → F) (norm : Bool) {mo : RangeOrder ι F} (ho : RangesAll mo) (t : Nat) (dt pt : Table ι F)
    (h : ∀ s, countDiff dt pt s ≠ none → N.type s = .sum) : N.applyHDGD f norm mo t dt pt = N.applyFast f norm mo t (countDiff dt pt) := by
  unfold Net.applyHDGD Net.applyFast
  dsimp only
  rw [foldlM_congr_mem (g := N.fastStep f norm mo t (countDiff dt pt))]
  intro a ha x
  rw [if_pos (h a (((ho.outer t _).2 a).1 ha))]

theorem countDiff_none {dt pt : Table ι F} {s : ι} : countDiff dt pt s = none ↔ dt s = none ∧ pt s = none := by
  unfold countDiff
  cases dt s <;> cases pt s <;> simp

theorem countDiff_entry {dt pt : Table ι F} {s : ι} {m : Int → Option F} (h : countDiff dt pt s = some m) (i : Int) :
    m i = (pt.entry s i).elim (dt.entry s i) fun y => some (sub ((dt.entry s i).getD (ofInt 0)) y) := by
  unfold countDiff at h
  unfold Table.entry
  cases hd : dt s with
  | none =>
    cases hp : pt s with
    | none => simp [hd, hp] at h
    | some e => simp only [hd, hp, Option.some.injEq] at h; subst h; cases he : e i <;> simp [he]
  | some c =>
    cases hp : pt s with
    | none => simp only [hd, hp, Option.some.injEq] at h; subst h; simp
    | some e => simp only [hd, hp, Option.some.injEq] at h; subst h; cases he : e i <;> simp [he]

end Apply

section Contrast
variable {ι : Type} [DecidableEq ι] [Fintype ι]

/-- The new weight of an edge with `h` and `h'` traces. -/
noncomputable def contrastWeight (eta lambda b : ℝ) (h h' : Nat) (a : ℝ) : ℝ := if h = h' then a else a + eta * ((h : ℝ) - h') / (a * b) - 2 * lambda * a

theorem HBatch.entry {N : Net ι XR} {S : ι} {dtk : Int} {st : Storer ι XR} {chs : List (ι → Nat)} (hB : HBatch N S dtk st chs) {n : ι} (hn : N.type n = .sum) (j : Nat) :
    st.entry dtk n j = if hits N S chs n j = 0 then none else some (.fin (hits N S chs n j)) := by
  split
  · rename_i h
    exact hB.others n j (by intro j' hj _; have : j' = j := by omega
                            subst this; exact h)
  · exact hB.counted n j hn ‹_›

theorem HBatch.row {N : Net ι XR} {S : ι} {dtk : Int} {st : Storer ι XR} {chs : List (ι → Nat)} (hwf : st.WF) (hB : HBatch N S dtk st chs) {n : ι} :
    st.deref (st.table dtk) n ≠ none ↔ N.type n = .sum ∧ ∃ j, hits N S chs n j ≠ 0 := by
  constructor
  · intro h
    obtain ⟨m, hm⟩ := Option.ne_none_iff_exists'.1 h
    obtain ⟨i, hi⟩ := hwf.row hm
    have : m i = st.entry dtk n i := by rw [← deref_table]; simp [Table.entry, hm]
    rw [this] at hi
    by_contra hc
    refine hi (hB.others n i ?_)
    rintro j rfl hs
    by_contra hh
    exact hc ⟨hs, j, hh⟩
  · rintro ⟨hs, j, hj⟩ h
    have := hB.counted n j hs hj
    rw [← deref_table] at this
    simp [Table.entry, h] at this

/-- Weights that are all the same and not positive become NaN. -/
theorem learnNormalize_zero {v : List ℝ} (h : (shiftNonneg v).sum = 0) : learnNormalize (v.map XR.fin) = v.map fun _ => .nan := by
  have h0 : ∀ x ∈ shiftNonneg v, x = 0 := by
    intro x hx
    have := List.single_le_sum (shiftNonneg_nonneg v) x hx
    exact le_antisymm (by rw [← h]; exact this) (shiftNonneg_nonneg v x hx)
  have hz : (shiftNonneg v).map XR.fin = v.map fun _ => XR.fin 0 := by
    unfold shiftNonneg at h0 ⊢
    rw [List.map_map]
    refine List.map_congr_left fun x hx => ?_
    simp [h0 _ (List.mem_map_of_mem hx)]
  rw [learnNormalize_fin, hz]
  have hs : ∀ (l : List ℝ), (l.map fun _ => XR.fin 0).foldl GoFloat.add (ofInt 0) = XR.fin 0 := by
    intro l
    induction l with
    | nil => simp
    | cons a l ih => simpa using ih
  unfold divSum
  rw [hs, List.map_map]
  refine List.map_congr_left fun x _ => ?_
  simp [XR.div, XR.signedInf]

/-- What holds between two instances, `N0` being the network of the start. -/
structure CState (S : ι) (d p : Int) (N0 : Net ι XR) (chs chs' : List (ι → Nat)) (x : Net ι XR × Storer ι XR) : Prop where
  shape : OnlyWeights S N0 x.1
  wf : x.2.WF
  with_ : HBatch x.1 S d x.2 chs
  without : HBatch x.1 S p x.2 chs'

theorem resetTickets_pair (st : Storer ι XR) (d p : Int) : st.resetTickets [d, p] = (st.reset d).reset p := rfl

theorem contrast_close {S : ι} {P : Params XR} {eta lambda : ℝ} (hP : P.lambda = .fin lambda) {norm : Bool} {b : Nat} (hb : 0 < b) {d p : Int} (hne : d ≠ p)
    {mo : RangeOrder ι XR} (ho : RangesAll mo) {N0 : Net ι XR} {x : Net ι XR × Storer ι XR} {chs chs' : List (ι → Nat)} (h : CState S d p N0 chs chs' x) (hw : PosWeights x.1 S) :
    ∃ y, Net.hardReset P (.fin eta) norm b mo d p x = some y ∧ CState S d p N0 [] [] y ∧ ContrastUpdate S eta lambda b norm chs chs' x.1 y.1 ∧
      (∀ k, x.2.table k ≠ none → y.2.table k ≠ none) ∧ ∀ k, k ≠ d → k ≠ p → ∀ n i, y.2.entry k n i = x.2.entry k n i := by
  obtain ⟨N, st⟩ := x
  dsimp only at *
  obtain ⟨hsh0, hwf, hB, hB'⟩ := h
  dsimp only at *
  have hb' : (0 : ℝ) < b := by exact_mod_cast hb
  set dt := st.deref (st.table d) with hdt
  set pt := st.deref (st.table p) with hpt
  have hrow : ∀ n, countDiff dt pt n ≠ none ↔ N.type n = .sum ∧ ∃ j, hits N S chs n j ≠ 0 ∨ hits N S chs' n j ≠ 0 := by
    intro n
    rw [Ne, countDiff_none, not_and_or, ← Ne, ← Ne, hB.row hwf, hB'.row hwf]
    constructor
    · rintro (⟨q, j, hj⟩ | ⟨q, j, hj⟩)
      · exact ⟨q, j, Or.inl hj⟩
      · exact ⟨q, j, Or.inr hj⟩
    · rintro ⟨q, j, hj | hj⟩
      · exact Or.inl ⟨q, j, hj⟩
      · exact Or.inr ⟨q, j, hj⟩
  have hreach : ∀ n j, (hits N S chs n j ≠ 0 ∨ hits N S chs' n j ≠ 0) → Reach N.ch S n := by
    rintro n j (hh | hh)
    · obtain ⟨ch, _, ht, _⟩ := hits_pos hh; exact onTrace_reach ht
    · obtain ⟨ch, _, ht, _⟩ := hits_pos hh; exact onTrace_reach ht
  have hent : ∀ n m, countDiff dt pt n = some m → ∀ i, m i = (st.entry p n i).elim (st.entry d n i) fun y => some (sub ((st.entry d n i).getD (ofInt 0)) y) := by
    intro n m hm i
    rw [countDiff_entry hm i, hdt, hpt, deref_table, deref_table]
  obtain ⟨b1, b2⟩ := hB.bounds hw hwf
  obtain ⟨b1', b2'⟩ := hB'.bounds hw hwf
  have hinn : ∀ n (T : Table ι XR) i, T.entry n i ≠ none → ∃ m, T n = some m ∧ m i ≠ none := by
    intro n T i hi
    unfold Table.entry at hi
    cases hT : T n with
    | none => simp [hT] at hi
    | some m => exact ⟨m, rfl, by simpa [hT] using hi⟩
  obtain ⟨N', q1, q2, q3⟩ := applyFast_spec N (hdgdWeight (.fin eta) (.fin lambda) (ofInt b)) norm ho st.next (countDiff dt pt) (by
    intro s cs w hk m hm i hi
    rw [hent s m hm i] at hi
    cases hp : st.entry p s i with
    | none =>
      rw [hp] at hi
      rw [← deref_table] at hi
      obtain ⟨m', e1, e2⟩ := hinn s _ i hi
      exact b2 s cs w hk m' e1 i e2
    | some y =>
      have hi' : st.entry p s i ≠ none := by rw [hp]; simp
      rw [← deref_table] at hi'
      obtain ⟨m', e1, e2⟩ := hinn s _ i hi'
      exact b2' s cs w hk m' e1 i e2)
  have happ : N.applyHDGD (hdgdWeight (.fin eta) P.lambda (ofInt b)) norm mo st.next dt pt = some N' := by
    rw [hP, applyHDGD_eq N _ norm ho _ _ _ (fun s hs => ((hrow s).1 hs).1), q1]
  have hval : ∀ n cs (r : List ℝ) m, N.kind n = .sum cs (r.map XR.fin) → (∀ x ∈ r, 0 < x) → countDiff dt pt n = some m →
      rowWeights (hdgdWeight (.fin eta) (.fin lambda) (ofInt b)) m (r.map XR.fin) = (r.mapIdx fun j a => contrastWeight eta lambda b (hits N S chs n j) (hits N S chs' n j) a).map XR.fin := by
    intro n cs r m hk hpos hm
    have hs : N.type n = .sum := by simp [Net.type, hk]
    apply List.ext_getElem (by simp [rowWeights])
    intro j hj1 hj2
    have hj : j < r.length := by simpa using hj2
    simp only [rowWeights, List.getElem_mapIdx, List.getElem_map, hent n m hm, hB.entry hs, hB'.entry hs]
    have ha : 0 < r[j] := hpos _ (List.getElem_mem hj)
    have hab : r[j] * (b : ℝ) ≠ 0 := (mul_pos ha hb').ne'
    generalize hits N S chs n j = h1
    generalize hits N S chs' n j = h2
    have hgen : ∀ delta : ℝ, delta = (h1 : ℝ) - h2 → hdgdWeight (XR.fin eta) (XR.fin lambda) (ofInt b) (XR.fin r[j]) (XR.fin delta) = XR.fin (contrastWeight eta lambda b h1 h2 r[j]) := by
      intro delta hdl
      unfold hdgdWeight contrastWeight
      by_cases h12 : h1 = h2
      · have : delta = 0 := by rw [hdl, h12]; ring
        simp [this, h12, XR.eq]
      · have h0 : delta ≠ 0 := by
          rw [hdl]; intro h0
          exact h12 (by exact_mod_cast sub_eq_zero.1 h0)
        have : GoFloat.eq (XR.fin delta) (ofInt 0) = false := by simp [XR.eq, h0]
        rw [this, if_neg h12]
        simp only [Bool.false_eq_true, if_false, XR.g_ofInt, XR.g_mul, XR.g_sub, XR.g_add, XR.g_div, XR.mul_fin, XR.div_fin (by exact_mod_cast hab : r[j] * ((b : ℤ) : ℝ) ≠ 0), XR.sub_fin, XR.add_fin]
        congr 1
        rw [hdl]
        push_cast
        ring
    by_cases k1 : h1 = 0 <;> by_cases k2 : h2 = 0
    · simp [k1, k2, contrastWeight]
    · simp only [k1, k2, if_true, if_false, Option.getD_none, XR.g_ofInt, XR.g_sub, XR.sub_fin, Option.elim_some]
      rw [← XR.g_ofInt, hgen _ (by simp [k1])]
      simp [k1]
    · simp only [k1, k2, if_true, if_false, Option.elim_none, Option.elim_some]
      rw [hgen _ (by simp [k2])]
      simp [k2]
    · simp only [k1, k2, if_false, Option.getD_some, XR.g_sub, XR.sub_fin, Option.elim_some]
      rw [hgen _ rfl]
  have hkind : ∀ n, Reach N.ch S n → ∀ cs (r : List ℝ), N.kind n = .sum cs (r.map XR.fin) → (∀ x ∈ r, 0 < x) → (∃ j, hits N S chs n j ≠ 0 ∨ hits N S chs' n j ≠ 0) →
      N'.kind n = .sum cs (if norm then learnNormalize ((r.mapIdx fun j a => contrastWeight eta lambda b (hits N S chs n j) (hits N S chs' n j) a).map XR.fin)
        else (r.mapIdx fun j a => contrastWeight eta lambda b (hits N S chs n j) (hits N S chs' n j) a).map XR.fin) := by
    intro n hr cs r hk hpos hh
    obtain ⟨m, hm⟩ := Option.ne_none_iff_exists'.1 ((hrow n).2 ⟨by simp [Net.type, hk], hh⟩)
    rw [q3 n cs _ m hk hm, hval n cs r m hk hpos hm]
  have hsame : ∀ n, (∀ j, hits N S chs n j = 0 ∧ hits N S chs' n j = 0) → N'.kind n = N.kind n := by
    intro n h0
    refine q2 n ?_
    by_cases hs : N.type n = .sum
    · right
      by_contra hc
      obtain ⟨_, j, hj⟩ := (hrow n).1 hc
      rcases hj with hj | hj
      · exact hj (h0 j).1
      · exact hj (h0 j).2
    · exact Or.inl hs
  have hsh : OnlyWeights S N N' := by
    intro n
    cases hk : N.kind n with
    | product cs => exact (q2 n (Or.inl (by simp [Net.type, hk]))).trans hk
    | leaf l => exact (q2 n (Or.inl (by simp [Net.type, hk]))).trans hk
    | sum cs w =>
      by_cases hh : ∃ j, hits N S chs n j ≠ 0 ∨ hits N S chs' n j ≠ 0
      · obtain ⟨j, hj⟩ := hh
        have hr := hreach n j hj
        obtain ⟨hne, r, rfl, hlen, hpos⟩ := hw n hr cs w hk
        exact ⟨_, hkind n hr cs r hk hpos ⟨j, hj⟩, by cases norm <;> simp [learnNormalize_length], fun h => absurd hr h⟩
      · push Not at hh
        exact ⟨w, (hsame n hh).trans hk, rfl, fun _ => rfl⟩
  have hwfd := Storer.reset_wf hwf d
  refine ⟨(N', (st.reset d).reset p), ?_, ⟨hsh0.trans hsh, Storer.reset_wf hwfd _, ?_, ?_⟩, ⟨hsh, ?_⟩, ?_, ?_⟩
  · show (N.applyHDGD _ norm mo st.next dt pt).map _ = _
    rw [show (ofInt ((b : Nat) : Int) : XR) = ofInt b from rfl, happ]; rfl
  · exact (hB.clear (N' := N') hwf).reset hwfd hne
  · exact (hB'.reset hwf (Ne.symm hne)).clear hwfd
  · intro n hr cs w hk
    refine ⟨hsame n, fun hh => ?_⟩
    obtain ⟨hne', r, rfl, hlen, hpos⟩ := hw n hr cs w hk
    have hk' := hkind n hr cs r hk hpos hh
    refine ⟨r, r.mapIdx fun j a => contrastWeight eta lambda b (hits N S chs n j) (hits N S chs' n j) a, rfl, by simp, ?_, ?_, ?_, ?_⟩
    · rintro rfl; exact hk'
    · rintro rfl h0
      rw [hk']
      simp only [if_true, (C25_normalize _ h0).1]
    · rintro rfl h0
      rw [hk']
      simp only [if_true, learnNormalize_zero h0, List.map_map]
    · intro j a hj
      simp [hj, contrastWeight]
  · intro k hk
    exact reset_table _ _ (reset_table _ _ hk)
  · intro k hkd hkp n i
    dsimp only
    rw [reset_entry hwfd, if_neg hkp, reset_entry hwf, if_neg hkd]

/-- What the hard loops need of an instance. -/
structure HardInst (N : Net ι XR) (S : ι) (Y : List Int) (I : VarSet) : Prop where
  full : LeavesMax N S I
  hidden : LeavesMax N S (hide Y I)
  restored : CanRestore Y I

theorem hide_eq (Y : List Int) (I : VarSet) : hide Y I = (pullValues I Y).1 := (pull_eq I Y).symm

theorem HBatch.same {N : Net ι XR} {S : ι} {dtk : Int} {st st' : Storer ι XR} {chs : List (ι → Nat)} (hB : HBatch N S dtk st chs) (ht : st'.table dtk = st.table dtk)
    (he : ∀ n i, st'.entry dtk n i = st.entry dtk n i) : HBatch N S dtk st' chs :=
  ⟨hB.nonneg, by rw [ht]; exact hB.table, hB.valid, fun n j => by rw [he]; exact hB.counted n j, fun n l => by rw [he]; exact hB.others n l⟩

/-- The two hard derivatives of an instance add a trace to each count. -/
theorem contrast_pair {S : ι} {Y : List Int} {d p : Int} (hne : d ≠ p) (pick : Nat → ι → Nat → Nat) {N0 : Net ι XR} (hN : HardNet N0 S) (hso : SiblingOrdered N0.ch S)
    {x : Net ι XR × Storer ι XR} {chs chs' : List (ι → Nat)} (h : CState S d p N0 chs chs' x) (hw : PosWeights x.1 S) {I : VarSet} (hI : HardInst N0 S Y I) :
    ∃ st' ch ch', x.1.hardPair S Y d p pick x.2 I = some (st', I) ∧ CState S d p N0 (chs ++ [ch]) (chs' ++ [ch']) (x.1, st') ∧ IsMapTrace x.1 S I ch ∧ IsMapTrace x.1 S (hide Y I) ch' ∧
      (∀ k, st'.table k = x.2.table k) ∧ ∀ k, k ≠ d → k ≠ p → ∀ n i, st'.entry k n i = x.2.entry k n i := by
  obtain ⟨N, st⟩ := x
  have hN' := hN.of h.shape
  have hso' : SiblingOrdered N.ch S := by rw [h.shape.ch]; exact hso
  obtain ⟨st1, ch, a1, a2, a3, a4, a5, a6⟩ := hard_count hN'.acyclic hN'.decomp hN'.leaves hw.nonneg (h.shape.leavesMax hI.full) h.wf h.with_ (pick (2 * st.next))
  obtain ⟨st2, ch', b1, b2, b3, b4, b5, b6⟩ := hard_count hN'.acyclic hN'.decomp hN'.leaves hw.nonneg (h.shape.leavesMax hI.hidden) a2
    (h.without.same (a3 p) (a5 p (Ne.symm hne))) (pick (2 * st.next + 1))
  refine ⟨st2, ch, ch', ?_, ⟨h.shape, b2, a4.same (b3 d) (b5 d hne), b4⟩, a6 hso', b6 hso', fun k => by rw [b3, a3], fun k h1 h2 n i => by rw [b5 k h2, a5 k h1]⟩
  rw [hide_eq] at b1
  have hback : pushValues (pullValues I Y).1 Y (pullValues I Y).2 = I := (C35_restored_iff I Y).2 hI.restored
  simp only [Net.hardPair, a1, b1, Option.bind_some, Option.map_some, hback]

theorem Spec.ContrastRun.append {S : ι} {eta lambda b : ℝ} {norm : Bool} {Y : List Int} {D D' : List (List VarSet)} {N N' N'' : Net ι XR} (h : ContrastRun S eta lambda b norm Y D N N')
    (h' : ContrastRun S eta lambda b norm Y D' N' N'') : ContrastRun S eta lambda b norm Y (D ++ D') N N'' := by
  induction h with
  | nil N => exact h'
  | cons chs chs' h1 h2 h3 _ ih => exact .cons chs chs' h1 h2 h3 (ih h')

/-- A run over the first blocks has left a weight that is not positive. -/
def Spoilt (S : ι) (eta lambda b : ℝ) (norm : Bool) (Y : List Int) (blocks : List (List VarSet)) (N : Net ι XR) : Prop :=
  ∃ pre post N1, blocks = pre ++ post ∧ post ≠ [] ∧ ContrastRun S eta lambda b norm Y pre N N1 ∧ ¬ PosWeights N1 S

theorem Spoilt.append {S : ι} {eta lambda b : ℝ} {norm : Bool} {Y : List Int} {D D' : List (List VarSet)} {N N' : Net ι XR} (h : ContrastRun S eta lambda b norm Y D N N')
    (h' : Spoilt S eta lambda b norm Y D' N') : Spoilt S eta lambda b norm Y (D ++ D') N := by
  obtain ⟨pre, post, N1, rfl, h0, h1, h2⟩ := h'
  exact ⟨D ++ pre, post, N1, by simp, h0, h.append h1, h2⟩

theorem Spoilt.more {S : ι} {eta lambda b : ℝ} {norm : Bool} {Y : List Int} {D : List (List VarSet)} (D' : List (List VarSet)) {N : Net ι XR}
    (h : Spoilt S eta lambda b norm Y D N) : Spoilt S eta lambda b norm Y (D ++ D') N := by
  obtain ⟨pre, post, N1, rfl, h0, h1, h2⟩ := h
  exact ⟨pre, post ++ D', N1, by simp, by simp [h0], h1, h2⟩

/-- The instances of `DiscriminativeHardGD`: the loop over a data set. -/
theorem dhgd_over {S : ι} {P : Params XR} {eta lambda : ℝ} (hP : P.lambda = .fin lambda) {norm : Bool} {Y : List Int} {d p : Int} (hne : d ≠ p) {mo : RangeOrder ι XR} (ho : RangesAll mo)
    (pick : Nat → ι → Nat → Nat) {N0 : Net ι XR} (hN : HardNet N0 S) (hso : SiblingOrdered N0.ch S) : ∀ (D : List VarSet) (x : Net ι XR × Storer ι XR),
    CState S d p N0 [] [] x → (∀ I ∈ D, HardInst N0 S Y I) →
    (∃ y, overData (Net.dhgdInstance S P (.fin eta) Y norm mo pick d p) x D = some (y, D) ∧ CState S d p N0 [] [] y ∧ ContrastRun S eta lambda 1 norm Y (D.map ([·])) x.1 y.1) ∨
      Spoilt S eta lambda 1 norm Y (D.map ([·])) x.1 := by
  intro D
  induction D with
  | nil => intro x hx _; exact Or.inl ⟨x, rfl, hx, .nil _⟩
  | cons I D ih =>
    intro x hx hD
    by_cases hw : PosWeights x.1 S
    · obtain ⟨st', ch, ch', a1, a2, a3, a4, _⟩ := contrast_pair (Y := Y) hne pick hN hso hx hw (hD I (by simp))
      obtain ⟨y, b1, b2, b3, _⟩ := contrast_close (eta := eta) (norm := norm) hP (b := 1) (by norm_num) hne ho a2 hw
      have hrun : ContrastRun S eta lambda 1 norm Y [[I]] x.1 y.1 :=
        .cons [ch] [ch'] (.cons a3 .nil) (.cons a4 .nil) (by simpa using b3) (.nil _)
      have hinst : Net.dhgdInstance S P (.fin eta) Y norm mo pick d p x I = some (y, I) := by
        have b1' : Net.hardReset P (.fin eta) norm 1 mo d p (x.1, st') = some y := b1
        simp only [Net.dhgdInstance, a1, Option.bind_some, b1', Option.map_some]
      rcases ih y b2 (fun J hJ => hD J (by simp [hJ])) with ⟨z, c1, c2, c3⟩ | hs
      · exact Or.inl ⟨z, by simp only [overData, hinst, Option.bind_some, c1, Option.map_some], c2, hrun.append c3⟩
      · exact Or.inr (Spoilt.append hrun hs)
    · exact Or.inr ⟨[], _, x.1, rfl, by simp, .nil _, hw⟩

theorem dhgd_epochs {S : ι} {P : Params XR} {eta lambda : ℝ} (hP : P.lambda = .fin lambda) {norm : Bool} {Y : List Int} {d p : Int} (hne : d ≠ p) {mo : RangeOrder ι XR} (ho : RangesAll mo)
    (pick : Nat → ι → Nat → Nat) {N0 : Net ι XR} (hN : HardNet N0 S) (hso : SiblingOrdered N0.ch S) {D : List VarSet} (hD : ∀ I ∈ D, HardInst N0 S Y I) : ∀ (k : Nat) (x : Net ι XR × Storer ι XR),
    CState S d p N0 [] [] x →
    (∃ y, (List.replicate k ()).foldlM (fun (x : (Net ι XR × Storer ι XR) × List VarSet) _ => overData (Net.dhgdInstance S P (.fin eta) Y norm mo pick d p) x.1 x.2) (x, D) = some (y, D) ∧
        ContrastRun S eta lambda 1 norm Y ((List.replicate k D).flatten.map ([·])) x.1 y.1) ∨
      Spoilt S eta lambda 1 norm Y ((List.replicate k D).flatten.map ([·])) x.1 := by
  intro k
  induction k with
  | zero => intro x _; exact Or.inl ⟨x, rfl, .nil _⟩
  | succ k ih =>
    intro x hx
    rw [List.replicate_succ (a := D), List.flatten_cons, List.map_append]
    rcases dhgd_over (eta := eta) (norm := norm) hP hne ho pick hN hso D x hx hD with ⟨y, a1, a2, a3⟩ | hs
    · rcases ih y a2 with ⟨z, b1, b2⟩ | hs
      · refine Or.inl ⟨z, ?_, a3.append b2⟩
        rw [List.replicate_succ, List.foldlM_cons, a1]
        exact b1
      · exact Or.inr (Spoilt.append a3 hs)
    · exact Or.inr (hs.more _)

/-- What holds between two instances of `DiscriminativeHardBGD`, `N0` being the network of the start and `done` all instances so far. -/
structure CBState (S : ι) (eta lambda : ℝ) (b : Nat) (norm : Bool) (Y : List Int) (d p u : Int) (N0 : Net ι XR) (done : List VarSet) (x : (Net ι XR × Storer ι XR) × Int) : Prop where
  count : x.2 = done.length
  vals : LogsAt u x.1.2
  parts : ∃ (blocks : List (List VarSet)) (cur : List VarSet) (chs chs' : List (ι → Nat)), done = blocks.flatten ++ cur ∧ (∀ B ∈ blocks, B.length = b) ∧ cur.length < b ∧
    ContrastRun S eta lambda b norm Y blocks N0 x.1.1 ∧ CState S d p N0 chs chs' x.1 ∧ List.Forall₂ (fun I ch => IsMapTrace x.1.1 S I ch) cur chs ∧
    List.Forall₂ (fun I ch => IsMapTrace x.1.1 S (hide Y I) ch) cur chs'

/-- The first full blocks of the instances have left a weight that is not positive. -/
def SpoiltBy (S : ι) (eta lambda : ℝ) (b : Nat) (norm : Bool) (Y : List Int) (all : List VarSet) (N : Net ι XR) : Prop :=
  ∃ (pre : List (List VarSet)) (rest : List VarSet) (N1 : Net ι XR), all = pre.flatten ++ rest ∧ rest ≠ [] ∧ (∀ B ∈ pre, B.length = b) ∧ ContrastRun S eta lambda b norm Y pre N N1 ∧ ¬ PosWeights N1 S

theorem SpoiltBy.more {S : ι} {eta lambda : ℝ} {b : Nat} {norm : Bool} {Y : List Int} {all : List VarSet} {N : Net ι XR} (h : SpoiltBy S eta lambda b norm Y all N) (more : List VarSet) :
    SpoiltBy S eta lambda b norm Y (all ++ more) N := by
  obtain ⟨pre, rest, N1, rfl, h0, h1, h2⟩ := h
  exact ⟨pre, rest ++ more, N1, by simp, by simp [h0], h1, h2⟩

theorem dhbgdInstance_state {S : ι} {P : Params XR} {eta lambda : ℝ} (hP : P.lambda = .fin lambda) {norm : Bool} {Y : List Int} {d p u : Int} (hne : d ≠ p) (hdu : d ≠ u) (hpu : p ≠ u) {b : Nat}
    (hb : 0 < b) {mo : RangeOrder ι XR} (ho : RangesAll mo) (pick : Nat → ι → Nat → Nat) {N0 : Net ι XR} (hN : HardNet N0 S) (hso : SiblingOrdered N0.ch S) {done : List VarSet}
    {x : (Net ι XR × Storer ι XR) × Int} (h : CBState S eta lambda b norm Y d p u N0 done x) {I : VarSet} (hI : HardInst N0 S Y I) (hE : LeavesEval N0 S I) :
    (∃ y, Net.dhbgdInstance S P (.fin eta) Y norm b mo pick d p u x I = some (y, I) ∧ CBState S eta lambda b norm Y d p u N0 (done ++ [I]) y) ∨
      SpoiltBy S eta lambda b norm Y (done ++ [I]) N0 := by
  obtain ⟨⟨N, st⟩, i⟩ := x
  obtain ⟨hc, hv, blocks, cur, chs, chs', hdone, hbl, hcur, hrun, hS, hg, hg'⟩ := h
  dsimp only at *
  by_cases hw : PosWeights N S
  swap
  · exact Or.inr ⟨blocks, cur ++ [I], N, by simp [hdone], by simp, hbl, hrun, hw⟩
  left
  obtain ⟨r, st1, e1, e2, e3, e4⟩ := storeInference_logs hw.nonneg (hS.shape.leavesEval hE) hS.wf hv
  have hwf1 := e2.wf hS.wf
  have hwf2 := Storer.reset_wf hwf1 u
  have hS1 : CState S d p N0 chs chs' (N, st1.reset u) :=
    ⟨hS.shape, hwf2, (hS.with_.same (e2.table d) (e4 d hdu)).reset hwf1 hdu, (hS.without.same (e2.table p) (e4 p hpu)).reset hwf1 hpu⟩
  have hv1 : LogsAt u (st1.reset u) := logsAt_reset hwf1 hv.nonneg e3.table
  obtain ⟨st', ch, ch', a1, a2, a3, a4, a5, a6⟩ := contrast_pair (Y := Y) hne pick hN hso hS1 hw hI
  dsimp only at a1 a3 a4 a5 a6
  have hv2 : LogsAt u st' := ⟨hv1.nonneg, by rw [a5]; exact hv1.table, fun n x hx => by rw [a6 u (Ne.symm hdu) (Ne.symm hpu)] at hx; exact hv1.logs n x hx⟩
  have hf : List.Forall₂ (fun I ch => IsMapTrace N S I ch) (cur ++ [I]) (chs ++ [ch]) := List.rel_append hg (.cons a3 .nil)
  have hf' : List.Forall₂ (fun I ch => IsMapTrace N S (hide Y I) ch) (cur ++ [I]) (chs' ++ [ch']) := List.rel_append hg' (.cons a4 .nil)
  have hlen : done.length = blocks.length * b + cur.length := by
    rw [hdone, List.length_append, List.length_flatten, List.map_congr_left hbl]
    simp
  have hdvd : b ∣ (done.length + 1) ↔ cur.length + 1 = b := by
    rw [hlen, Nat.add_assoc, Nat.dvd_add_right (Nat.dvd_mul_left _ _)]
    constructor
    · intro hdv
      have := Nat.le_of_dvd (by omega) hdv
      omega
    · intro e; rw [e]
  have hgo : goDvd (i + 1) b = some (decide (cur.length + 1 = b)) := by
    rw [hc, ← Nat.cast_succ, goDvd_nat _ _ hb]
    simp only [Nat.succ_eq_add_one, hdvd]
  simp only [Net.dhbgdInstance, e1, a1, Option.bind_some, hgo, decide_eq_true_eq]
  by_cases hfull : cur.length + 1 = b
  · rw [if_pos hfull]
    obtain ⟨y, q1, q2, q3, q4, q5⟩ := contrast_close (eta := eta) (norm := norm) hP hb hne ho a2 hw
    rw [q1]
    refine ⟨_, rfl, by simp [hc], ⟨hv2.nonneg, q4 u hv2.table, fun n x hx => ?_⟩, blocks ++ [cur ++ [I]], [], [], [], by simp [hdone], ?_, by simpa using hb, ?_, q2, .nil, .nil⟩
    · rw [q5 u (Ne.symm hdu) (Ne.symm hpu)] at hx; exact hv2.logs n x hx
    · intro B hB'
      rcases List.mem_append.1 hB' with h' | h'
      · exact hbl B h'
      · simp at h'; subst h'; simpa using hfull
    · exact hrun.append (.cons _ _ hf hf' q3 (.nil _))
  · rw [if_neg hfull]
    exact ⟨_, rfl, by simp [hc], hv2, blocks, cur ++ [I], chs ++ [ch], chs' ++ [ch'], by simp [hdone], hbl, by simp; omega, hrun, a2, hf, hf'⟩

theorem dhbgd_over {S : ι} {P : Params XR} {eta lambda : ℝ} (hP : P.lambda = .fin lambda) {norm : Bool} {Y : List Int} {d p u : Int} (hne : d ≠ p) (hdu : d ≠ u) (hpu : p ≠ u) {b : Nat}
    (hb : 0 < b) {mo : RangeOrder ι XR} (ho : RangesAll mo) (pick : Nat → ι → Nat → Nat) {N0 : Net ι XR} (hN : HardNet N0 S) (hso : SiblingOrdered N0.ch S) :
    ∀ (D done : List VarSet) (x : (Net ι XR × Storer ι XR) × Int), CBState S eta lambda b norm Y d p u N0 done x → (∀ I ∈ D, HardInst N0 S Y I ∧ LeavesEval N0 S I) →
    (∃ y, overData (Net.dhbgdInstance S P (.fin eta) Y norm b mo pick d p u) x D = some (y, D) ∧ CBState S eta lambda b norm Y d p u N0 (done ++ D) y) ∨
      SpoiltBy S eta lambda b norm Y (done ++ D) N0 := by
  intro D
  induction D with
  | nil => intro done x h _; exact Or.inl ⟨x, rfl, by simpa using h⟩
  | cons I D ih =>
    intro done x h hD
    rcases dhbgdInstance_state hP hne hdu hpu hb ho pick hN hso h (hD I (by simp)).1 (hD I (by simp)).2 with ⟨y, a1, a2⟩ | hs
    · rcases ih (done ++ [I]) y a2 (fun J hJ => hD J (by simp [hJ])) with ⟨z, b1, b2⟩ | hs
      · exact Or.inl ⟨z, by simp only [overData, a1, Option.bind_some, b1, Option.map_some], by simpa using b2⟩
      · exact Or.inr (by simpa using hs)
    · exact Or.inr (by simpa using hs.more D)

theorem dhbgd_epochs {S : ι} {P : Params XR} {eta lambda : ℝ} (hP : P.lambda = .fin lambda) {norm : Bool} {Y : List Int} {d p u : Int} (hne : d ≠ p) (hdu : d ≠ u) (hpu : p ≠ u) {b : Nat}
    (hb : 0 < b) {mo : RangeOrder ι XR} (ho : RangesAll mo) (pick : Nat → ι → Nat → Nat) {N0 : Net ι XR} (hN : HardNet N0 S) (hso : SiblingOrdered N0.ch S) {D : List VarSet}
    (hD : ∀ I ∈ D, HardInst N0 S Y I ∧ LeavesEval N0 S I) : ∀ (k : Nat) (done : List VarSet) (x : (Net ι XR × Storer ι XR) × Int), CBState S eta lambda b norm Y d p u N0 done x →
    (∃ y, (List.replicate k ()).foldlM (fun (x : ((Net ι XR × Storer ι XR) × Int) × List VarSet) _ => overData (Net.dhbgdInstance S P (.fin eta) Y norm b mo pick d p u) x.1 x.2) (x, D) =
        some (y, D) ∧ CBState S eta lambda b norm Y d p u N0 (done ++ (List.replicate k D).flatten) y) ∨
      SpoiltBy S eta lambda b norm Y (done ++ (List.replicate k D).flatten) N0 := by
  intro k
  induction k with
  | zero => intro done x h; exact Or.inl ⟨x, rfl, by simpa using h⟩
  | succ k ih =>
    intro done x h
    rw [List.replicate_succ (a := D), List.flatten_cons, ← List.append_assoc]
    rcases dhbgd_over hP hne hdu hpu hb ho pick hN hso D done x h hD with ⟨y, a1, a2⟩ | hs
    · rcases ih _ y a2 with ⟨z, b1, b2⟩ | hs
      · refine Or.inl ⟨z, ?_, b2⟩
        rw [List.replicate_succ, List.foldlM_cons, a1]
        exact b1
      · exact Or.inr hs
    · exact Or.inr (hs.more _)

theorem blocking_exists {α : Type} {b : Nat} (hb : 0 < b) : ∀ (n : Nat) (l : List α), l.length ≤ n → ∃ blocks, IsBlocking b l blocks := by
  intro n
  induction n with
  | zero => intro l hl; exact ⟨[], by simp [List.length_eq_zero_iff.1 (Nat.le_zero.1 hl)], by simp, by simp⟩
  | succ n ih =>
    intro l hl
    by_cases h0 : l = []
    · exact ⟨[], by simp [h0], by simp, by simp⟩
    by_cases hlt : l.length ≤ b
    · exact ⟨[l], by simp, by simpa using ⟨h0, hlt⟩, by simp⟩
    · obtain ⟨bs, h1, h2, h3⟩ := ih (l.drop b) (by simp; omega)
      have hne : bs ≠ [] := by
        rintro rfl
        have : l.drop b = [] := by simpa using h1.symm
        rw [List.drop_eq_nil_iff] at this
        exact hlt this
      refine ⟨l.take b :: bs, by simp [h1], ?_, ?_⟩
      · intro B hB
        rcases List.mem_cons.1 hB with rfl | hB
        · refine ⟨?_, by simp⟩
          intro h
          rcases List.take_eq_nil_iff.1 h with h | h
          · omega
          · exact h0 h
        · exact h2 B hB
      · rw [List.dropLast_cons_of_ne_nil hne]
        intro B hB
        rcases List.mem_cons.1 hB with rfl | hB
        · simp; omega
        · exact h3 B hB

theorem blocking_append {α : Type} {b : Nat} (hb : 0 < b) {pre post : List (List α)} {rest : List α} (hp : ∀ B ∈ pre, B.length = b) (h : IsBlocking b rest post) :
    IsBlocking b (pre.flatten ++ rest) (pre ++ post) := by
  obtain ⟨h1, h2, h3⟩ := h
  refine ⟨by simp [h1], ?_, ?_⟩
  · intro B hB
    rcases List.mem_append.1 hB with h | h
    · exact ⟨by rintro rfl; have := hp _ h; simp at this; omega, (hp B h).le⟩
    · exact h2 B h
  · intro B hB
    by_cases hpost : post = []
    · subst hpost
      rw [List.append_nil] at hB
      exact hp B (List.dropLast_subset _ hB)
    · rw [List.dropLast_append_of_ne_nil hpost] at hB
      rcases List.mem_append.1 hB with h | h
      · exact hp B h
      · exact h3 B h

end Contrast
end Gospn
