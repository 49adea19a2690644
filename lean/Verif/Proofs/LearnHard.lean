import Verif.Proofs.LearnBatch
import Verif.Props.Hard
/-
Lemmas about the hard forms of the learning loops.
-/
set_option linter.unusedSectionVars false
set_option linter.unusedSimpArgs false
namespace Gospn
open Spec GoFloat

section Apply
variable {ι F : Type} [DecidableEq ι]

theorem Spec.OnlyWeights.leavesMax {S : ι} {N N' : Net ι XR} (h : OnlyWeights S N N') {I : VarSet} (hl : LeavesMax N S I) : LeavesMax N' S I := by
  intro n l hn hk
  exact hl n l (by rw [← h.ch]; exact hn) (h.leaf.1 hk)

theorem Spec.OnlyWeights.leaves {S : ι} {N N' : Net ι F} (h : OnlyWeights S N N') (hl : LeavesAreLeaves N S) : LeavesAreLeaves N' S := by
  intro n hn ht
  rw [h.ch] at hn ⊢
  rw [h.type] at ht
  exact hl n hn ht

theorem Spec.PosWeights.nonneg {S : ι} {N : Net ι XR} (h : PosWeights N S) : NonnegWeights N S := by
  intro n hn cs w hk
  obtain ⟨h1, r, h2, h3, h4⟩ := h n hn cs w hk
  exact ⟨h1, r, h2, h3, fun x hx => (h4 x hx).le⟩

theorem onTrace_reach {N : Net ι F} {ch : ι → Nat} {S n : ι} (h : OnTrace N ch S n) : Reach N.ch S n := by
  induction h with
  | root => exact .refl
  | product _ hk hc ih => exact ih.tail (by simpa [Net.ch, hk] using hc)
  | sum _ hk hc ih => exact ih.tail (by simpa [Net.ch, hk] using List.mem_of_getElem? hc)

theorem foldlM_skip {σ α β : Type} (T : α → Option β) (f g : σ → α → Option σ) (h0 : ∀ x a, T a = none → g x a = some x) (h1 : ∀ x a, T a ≠ none → g x a = f x a) : ∀ (l : List α) (x : σ),
    l.foldlM g x = (l.filter fun a => (T a).isSome).foldlM f x := by
  intro l
  induction l with
  | nil => intro x; rfl
  | cons a l ih =>
    intro x
    rw [List.foldlM_cons]
    cases h : T a with
    | none => simp [h, ih, h0 x a h]
    | some b =>
      simp only [h, List.filter_cons, Option.isSome_some, if_true, List.foldlM_cons, h1 x a (by simp [h])]
      congr 1
      funext y
      exact ih y

variable [GoFloat F] [Fintype ι]

/-- `applyHGD` does what `applyFastHGD` does, if the sum nodes in the table are below `S`. -/
theorem applyHGD_spec (N : Net ι F) (S : ι) (f : F → F → F) (norm : Bool) {mo : RangeOrder ι F} (ho : RangesAll mo) (t : Nat) (T : Table ι F)
    (hr : ∀ s, T s ≠ none → N.type s = .sum → Reach N.ch S s) (hb : ∀ s cs w, N.kind s = .sum cs w → ∀ m, T s = some m → ∀ i, m i ≠ none → 0 ≤ i ∧ i < w.length) :
    ∃ N', N.applyHGD S f norm mo t T = some N' ∧ (∀ n, (N.type n ≠ .sum ∨ T n = none) → N'.kind n = N.kind n) ∧
      ∀ n cs w m, N.kind n = .sum cs w → T n = some m → N'.kind n = .sum cs (if norm then learnNormalize (rowWeights f m w) else rowWeights f m w) := by
  have hls := workOrder_lists N.innerCh false S
  obtain ⟨W', g1, g2, g3⟩ := fastFold_spec (N := N) f norm ho t T ((workOrder N.innerCh false S).filter fun a => (T a).isSome) N.weights (hls.1.filter _)
    (fun s hs => by have := (List.mem_filter.1 hs).2; intro h; simp [h] at this) (by
    intro s _ hs m hm i hi
    cases hk : N.kind s with
    | sum cs w => simpa [Net.weights, hk] using hb s cs w hk m hm i hi
    | product cs => simp [Net.type, hk] at hs
    | leaf l => simp [Net.type, hk] at hs)
  have hrun : N.applyHGD S f norm mo t T = some (N.withWeights W') := by
    unfold Net.applyHGD
    rw [work_static _ (fun W s => match T s with | none => some W | some _ => N.fastStep f norm mo t T W s) N.innerCh (by intro x u; rfl)]
    rw [foldlM_skip T (N.fastStep f norm mo t T) _ (by intro x a h; simp only [h]) (by intro x a h; obtain ⟨m, hm⟩ := Option.ne_none_iff_exists'.1 h; simp only [hm]), g1]
    rfl
  refine ⟨_, hrun, ?_, ?_⟩
  · intro n hn
    have : W' n = N.weights n := g3 n (by
      rcases hn with hn | hn
      · exact Or.inr hn
      · exact Or.inl (fun h => by have := (List.mem_filter.1 h).2; simp [hn] at this))
    cases hk : N.kind n <;> simp [Net.withWeights, hk, this, Net.weights]
  · intro n cs w m hk hm
    have hsum : N.type n = .sum := by simp [Net.type, hk]
    have := g2 n (List.mem_filter.2 ⟨(hls.2 n).2 (innerReach_of (hr n (by simp [hm]) hsum) (Or.inr (by simp [hsum]))), by simp [hm]⟩) hsum
    simp only [Net.withWeights, hk, this, hm, Option.getD_some]
    simp only [Net.weights, hk]

end Apply

section Hard
variable {ι : Type} [DecidableEq ι] [Fintype ι]

theorem hits_append (N : Net ι XR) (S : ι) (chs : List (ι → Nat)) (ch : ι → Nat) (n : ι) (j : Nat) [Decidable (OnTrace N ch S n ∧ ch n = j)] :
    hits N S (chs ++ [ch]) n j = hits N S chs n j + if OnTrace N ch S n ∧ ch n = j then 1 else 0 := by
  simp only [hits, List.countP_append, List.countP_singleton, decide_eq_true_eq]

theorem hits_pos {N : Net ι XR} {S : ι} {chs : List (ι → Nat)} {n : ι} {j : Nat} (h : hits N S chs n j ≠ 0) : ∃ ch ∈ chs, OnTrace N ch S n ∧ ch n = j := by
  obtain ⟨ch, h1, h2⟩ := List.countP_pos_iff.1 (Nat.pos_of_ne_zero h)
  exact ⟨ch, h1, by simpa using h2⟩

/-- What the ticket `dtk` holds during a block: the counts of the traces. -/
structure HBatch (N : Net ι XR) (S : ι) (dtk : Int) (st : Storer ι XR) (chs : List (ι → Nat)) : Prop where
  nonneg : 0 ≤ dtk
  table : st.table dtk ≠ none
  valid : ∀ ch ∈ chs, ∀ n cs w, OnTrace N ch S n → N.kind n = .sum cs w → ch n < cs.length
  counted : ∀ n (j : Nat), N.type n = .sum → hits N S chs n j ≠ 0 → st.entry dtk n j = some (.fin (hits N S chs n j))
  others : ∀ n (l : Int), (∀ j : Nat, l = j → N.type n = .sum → hits N S chs n j = 0) → st.entry dtk n l = none

theorem pmax_isMax {N : Net ι XR} (hac : Acyclic N.ch) {S : ι} {I : VarSet} (hw : NonnegWeights N S) (hl : LeavesMax N S I) : IsMaxValuation N S I (N.pmax I) := by
  intro n hn
  cases hk : N.kind n with
  | leaf l =>
    obtain ⟨x, h1, h2⟩ := hl n l hn hk
    refine ⟨x, h1, h2, Net.pmax_some ?_⟩
    rw [Net.max_unfold hac]; simp [Net.maxStep, hk, h1]
  | product cs => exact Net.max_product hac hw hl hn hk
  | sum cs w =>
    obtain ⟨hne, r, rfl, _, _⟩ := hw n hn cs w hk
    obtain ⟨g, us, h1, h2, h3, h4, h5, h6, h7, h8⟩ := Net.max_sum hac hw hl hn hk
    obtain ⟨m1, m2, m3⟩ := maxCompute_spec us h4
    have hp : N.pmax I n = unlog (maxCompute us) := Net.pmax_some h6
    have hat : ∀ (j : Nat) (u : XR), us[j]? = some u → ∃ c a, cs[j]? = some c ∧ (r.map XR.fin)[j]? = some (.fin a) ∧ unlog u = a * N.pmax I c := by
      intro j u hu
      have hj : j < us.length := (List.getElem?_eq_some_iff.1 hu).1
      refine ⟨cs[j]'(by omega), r[j]'(by omega), List.getElem?_eq_getElem _, by simp [List.getElem?_eq_getElem (by omega : j < r.length)], ?_⟩
      have := congrArg (fun l => l[j]?) h5
      simp only [List.getElem?_map, hu, Option.map_some, List.getElem?_zipWith, List.getElem?_eq_getElem (by omega : j < r.length), List.getElem?_eq_getElem (by omega : j < cs.length)] at this
      simpa using this
    have hto : ∀ (j : Nat) c a, cs[j]? = some c → (r.map XR.fin)[j]? = some (.fin a) → ∃ u ∈ us, unlog u = a * N.pmax I c := by
      intro j c a hc ha
      have hj : j < us.length := by rw [h3]; exact (List.getElem?_eq_some_iff.1 hc).1
      obtain ⟨c', a', e1, e2, e3⟩ := hat j us[j] (List.getElem?_eq_getElem hj)
      rw [hc] at e1; rw [ha] at e2
      cases e1; cases e2
      exact ⟨us[j], List.getElem_mem hj, e3⟩
    simp only
    rw [hp]
    constructor
    · rcases m2 with hm | hm
      · have hlen : 0 < us.length := by rw [h3]; exact List.length_pos_iff.2 hne
        obtain ⟨c, a, e1, e2, e3⟩ := hat 0 us[0] (List.getElem?_eq_getElem hlen)
        refine ⟨0, c, a, e1, e2, ?_⟩
        rw [← e3]
        have := m3 us[0] (List.getElem_mem hlen)
        have h0 := unlog_nonneg' us[0]
        rw [hm] at this ⊢
        simp only [unlog_ninf] at this ⊢
        linarith
      · obtain ⟨j, hj, he⟩ := List.mem_iff_getElem.1 hm
        obtain ⟨c, a, e1, e2, e3⟩ := hat j us[j] (List.getElem?_eq_getElem hj)
        exact ⟨j, c, a, e1, e2, by rw [← he, e3]⟩
    · rintro y ⟨j, c, a, hc, ha, rfl⟩
      obtain ⟨u, hu, he⟩ := hto j c a hc ha
      rw [← he]; exact m3 u hu

/-- `DeriveHard` adds a trace to the counts of the ticket `dtk`. -/
theorem hard_count {N : Net ι XR} {S : ι} {I : VarSet} (hac : Acyclic N.ch) (hd : IsDecomposable N S) (hll : LeavesAreLeaves N S) (hw : NonnegWeights N S) (hlm : LeavesMax N S I)
    {dtk : Int} {st1 : Storer ι XR} (hw1 : st1.WF) {chs : List (ι → Nat)} (hB : HBatch N S dtk st1 chs) (pick : ι → Nat → Nat) :
    ∃ st2 ch, N.deriveHard S st1 dtk I pick = some (dtk, st2) ∧ st2.WF ∧ (∀ k, st2.table k = st1.table k) ∧ HBatch N S dtk st2 (chs ++ [ch]) ∧
      (∀ k, k ≠ dtk → ∀ n i, st2.entry k n i = st1.entry k n i) ∧ (SiblingOrdered N.ch S → IsMapTrace N S I ch) := by
  classical
  have hdt : st1.table dtk ≠ none := hB.table
  have hu : usedTicket st1 dtk = dtk := by simp [usedTicket, not_lt.2 hB.nonneg]
  have hnl := not_lt.2 hB.nonneg
  obtain ⟨st2, g1⟩ := C36_returns N S I pick hac hd hll hw hlm st1 hw1 dtk (Or.inr hdt)
  rw [hu] at g1
  obtain ⟨_, _, _, _, ⟨q3, q4⟩, _, _, _, _, q8⟩ := deriveHard_spec N S I pick hac hd hll st1 hw1 dtk (Or.inr hdt) _ st2 g1
  replace q4 := q4 hnl
  have key : ∃ ch : ι → Nat, (∀ n cs w, OnTrace N ch S n → N.kind n = .sum cs w → ch n < cs.length) ∧
      (∀ n (i : Int), (OnTrace N ch S n ∧ N.type n = .sum ∧ i = ch n) → st2.entry dtk n i = some (add ((st1.entry dtk n i).getD (ofInt 0)) (ofInt 1))) ∧
      (∀ n (i : Int), ¬ (OnTrace N ch S n ∧ N.type n = .sum ∧ i = ch n) → st2.entry dtk n i = st1.entry dtk n i) ∧ (SiblingOrdered N.ch S → IsMapTrace N S I ch) := by
    by_cases hso : SiblingOrdered N.ch S
    · obtain ⟨st2', ch, a1, a2, a3, a4, _⟩ := C36_map_trace_partial N S I pick hac hso hd hll hw hlm st1 hw1 dtk (Or.inr hdt)
      rw [hu] at a1 a3 a4
      simp only [hnl, if_false] at a3 a4
      rw [g1] at a1
      obtain rfl : st2 = st2' := by simpa using a1
      refine ⟨ch, ?_, a3, a4, fun _ => ⟨N.pmax I, pmax_isMax hac hw hlm, ?_⟩⟩
      · intro n cs w hn hk
        obtain ⟨c, p, e1, _⟩ := a2 n cs w hn hk
        exact (List.getElem?_eq_some_iff.1 e1).1
      · intro n cs w hn hk
        obtain ⟨c, p, e1, e2, e3⟩ := a2 n cs w hn hk
        refine ⟨c, p, e1, e2, ?_⟩
        have := pmax_isMax hac hw hlm n (onTrace_reach hn)
        rw [hk] at this
        simp only at this
        refine le_antisymm ?_ (this.2 ⟨_, c, p, e1, e2, rfl⟩)
        obtain ⟨j, c', a, f1, f2, f3⟩ := this.1
        rw [f3]; exact e3 j c' a f1 f2
    · obtain ⟨ch, a1, a2, _, a4, a5, _⟩ := C36_counts N S I pick hac hd hll st1 hw1 dtk (Or.inr hdt) _ st2 g1
      simp only [hnl, if_false] at a4 a5
      exact ⟨ch, a2, a4, a5, fun h => absurd h hso⟩
  obtain ⟨ch, k1, k2, k3, k4⟩ := key
  refine ⟨st2, ch, g1, q3, q4, ⟨hB.nonneg, by rw [q4]; exact hdt, ?_, ?_, ?_⟩, q8, k4⟩
  · intro c hc
    rcases List.mem_append.1 hc with h | h
    · exact hB.valid c h
    · simp at h; subst h; exact k1
  · intro n j hn hh
    by_cases ht : OnTrace N ch S n ∧ ch n = j
    · rw [k2 n j ⟨ht.1, hn, by rw [ht.2]⟩, hits_append, if_pos ht]
      by_cases h0 : hits N S chs n j = 0
      · rw [hB.others n j (by intro j' hj _; have : j' = j := by omega
                              subst this; exact h0), h0]
        simp
      · rw [hB.counted n j hn h0]
        simp
    · rw [hits_append, if_neg ht, Nat.add_zero] at hh ⊢
      rw [k3 n j (by rintro ⟨a, _, b⟩; exact ht ⟨a, by omega⟩)]
      exact hB.counted n j hn hh
  · intro n l h
    have hnt : ¬ (OnTrace N ch S n ∧ N.type n = .sum ∧ l = ch n) := by
      rintro ⟨a, b, rfl⟩
      have := h (ch n) rfl b
      rw [hits_append, if_pos ⟨a, rfl⟩] at this
      omega
    rw [k3 n l hnt]
    apply hB.others
    intro j hj hn
    have := h j hj hn
    rw [hits_append] at this
    omega

/-- One instance of the hard loops before the weights are looked at. -/
theorem hard_accumulate {N : Net ι XR} {S : ι} {I : VarSet} (hac : Acyclic N.ch) (hd : IsDecomposable N S) (hll : LeavesAreLeaves N S) (hw : NonnegWeights N S) (hl : LeavesEval N S I) (hlm : LeavesMax N S I)
    {dtk itk : Int} {st : Storer ι XR} (hwf : st.WF) (hi : LogsAt itk st) (hne : dtk ≠ itk) {chs : List (ι → Nat)} (hB : HBatch N S dtk st chs) :
    ∃ r1, N.storeInference S I itk st = some r1 ∧ ∀ pick, ∃ r2 ch, N.deriveHard S r1.2 dtk I pick = some r2 ∧ r2.2.WF ∧ r2.2.table itk ≠ none ∧ HBatch N S dtk r2.2 (chs ++ [ch]) ∧
      (SiblingOrdered N.ch S → IsMapTrace N S I ch) := by
  obtain ⟨r, st1, h1, h2, h3, h4⟩ := storeInference_logs hw hl hwf hi
  refine ⟨(r, st1), h1, ?_⟩
  intro pick
  have hB1 : HBatch N S dtk st1 chs :=
    ⟨hB.nonneg, by rw [h2.table]; exact hB.table, hB.valid, fun n j => by rw [h4 dtk hne]; exact hB.counted n j, fun n l => by rw [h4 dtk hne]; exact hB.others n l⟩
  obtain ⟨st2, ch, g1, g2, g3, g4, _, g6⟩ := hard_count hac hd hll hw hlm (h2.wf hwf) hB1 pick
  exact ⟨(dtk, st2), ch, g1, g2, by rw [g3]; exact h3.table, g4, g6⟩

theorem sum_pos_of {r : List ℝ} (hne : r ≠ []) (h : ∀ x ∈ r, 0 < x) : 0 < r.sum := by
  cases r with
  | nil => exact absurd rfl hne
  | cons a r =>
    rw [List.sum_cons]
    have h1 := h a (by simp)
    have h2 : 0 ≤ r.sum := List.sum_nonneg (fun x hx => (h x (by simp [hx])).le)
    linarith

/-- The new weight of an edge that `h` traces go through. -/
noncomputable def hardWeight (eta lambda b : ℝ) (h : Nat) (a : ℝ) : ℝ := if h = 0 then a else a + eta * h / (a * b) - 2 * lambda * a

theorem hardWeight_pos {eta lambda b : ℝ} (he : 0 ≤ eta) (hla : lambda < 1 / 2) (hb : 0 < b) (h : Nat) {a : ℝ} (ha : 0 < a) : 0 < hardWeight eta lambda b h a := by
  unfold hardWeight
  split
  · exact ha
  · have : 0 ≤ eta * h / (a * b) := by positivity
    nlinarith

/-- What a new network is like whose weights come from the counts. -/
theorem hard_result {N N' : Net ι XR} {S : ι} (hw : PosWeights N S) {dtk : Int} {st : Storer ι XR} (hwf : st.WF) {chs : List (ι → Nat)} (hB : HBatch N S dtk st chs)
    {eta lambda : ℝ} {b : Int} (hb : 0 < b) (he : 0 ≤ eta) (hla : lambda < 1 / 2) {norm : Bool} (hn : norm = true → DistWeights N S)
    (h2 : ∀ n, (N.type n ≠ .sum ∨ st.deref (st.table dtk) n = none) → N'.kind n = N.kind n)
    (h3 : ∀ n cs w m, N.kind n = .sum cs w → st.deref (st.table dtk) n = some m →
      N'.kind n = .sum cs (if norm then learnNormalize (rowWeights (hgdWeight (.fin eta) (.fin lambda) (ofInt b)) m w) else rowWeights (hgdWeight (.fin eta) (.fin lambda) (ofInt b)) m w)) :
    HardUpdate S eta lambda b norm chs N N' ∧ PosWeights N' S ∧ (norm = true → DistWeights N' S) := by
  have hb' : (0 : ℝ) < b := by exact_mod_cast hb
  have hent : ∀ n m, (st.deref (st.table dtk)) n = some m → ∀ i, m i = st.entry dtk n i := by
    intro n m hm i
    rw [← deref_table]; simp [Table.entry, hm]
  have hrowreach : ∀ n m, (st.deref (st.table dtk)) n = some m → N.type n = .sum ∧ ∃ j, hits N S chs n j ≠ 0 := by
    intro n m hm
    obtain ⟨i, hi⟩ := hwf.row hm
    rw [hent n m hm] at hi
    by_contra hc
    refine hi (hB.others n i ?_)
    rintro j rfl hs
    by_contra hh
    exact hc ⟨hs, j, hh⟩
  have hreach : ∀ n j, hits N S chs n j ≠ 0 → Reach N.ch S n := by
    intro n j hh
    obtain ⟨ch, _, ht, _⟩ := hits_pos hh
    exact onTrace_reach ht
  -- rows and counts
  have hnone : ∀ n, N.type n = .sum → (∀ j, hits N S chs n j = 0) → (st.deref (st.table dtk)) n = none := by
    intro n _ h0
    cases hm : (st.deref (st.table dtk)) n with
    | none => rfl
    | some m => obtain ⟨_, j, hj⟩ := hrowreach n m hm; exact absurd (h0 j) hj
  have hsome : ∀ n, N.type n = .sum → (∃ j, hits N S chs n j ≠ 0) → ∃ m, (st.deref (st.table dtk)) n = some m := by
    rintro n hs ⟨j, hj⟩
    have := hB.counted n j hs hj
    rw [← deref_table] at this
    cases hm : (st.deref (st.table dtk)) n with
    | none => simp [Table.entry, hm] at this
    | some m => exact ⟨m, rfl⟩
  have hval : ∀ n cs (r : List ℝ) m, N.kind n = .sum cs (r.map XR.fin) → (∀ x ∈ r, 0 < x) → (st.deref (st.table dtk)) n = some m →
      rowWeights (hgdWeight (.fin eta) (.fin lambda) (ofInt b)) m (r.map XR.fin) = (r.mapIdx fun j a => hardWeight eta lambda b (hits N S chs n j) a).map XR.fin := by
    intro n cs r m hk hpos hm
    have hs : N.type n = .sum := by simp [Net.type, hk]
    apply List.ext_getElem (by simp [rowWeights])
    intro j hj1 hj2
    have hj : j < r.length := by simpa using hj2
    simp only [rowWeights, List.getElem_mapIdx, List.getElem_map, hent n m hm]
    have ha : 0 < r[j] := hpos _ (List.getElem_mem hj)
    by_cases h0 : hits N S chs n j = 0
    · rw [hB.others n j (by intro j' hj' _; have : j' = j := by omega
                            subst this; exact h0)]
      simp [hardWeight, h0]
    · rw [hB.counted n j hs h0]
      have hab : r[j] * (b : ℝ) ≠ 0 := (mul_pos ha hb').ne'
      simp only [Option.elim_some, hgdWeight, XR.g_ofInt, XR.g_mul, XR.g_sub, XR.g_add, XR.g_div, XR.mul_fin, XR.div_fin hab, XR.sub_fin, XR.add_fin, hardWeight, if_neg h0]
      congr 1
      push_cast
      ring
  have hkind : ∀ n, Reach N.ch S n → ∀ cs (r : List ℝ), N.kind n = .sum cs (r.map XR.fin) → r ≠ [] → (∀ x ∈ r, 0 < x) → (∃ j, hits N S chs n j ≠ 0) →
      (∀ x ∈ r.mapIdx fun j a => hardWeight eta lambda b (hits N S chs n j) a, 0 < x) ∧ 0 < (r.mapIdx fun j a => hardWeight eta lambda b (hits N S chs n j) a).sum ∧
      N'.kind n = .sum cs ((if norm then (r.mapIdx fun j a => hardWeight eta lambda b (hits N S chs n j) a).map (· / (r.mapIdx fun j a => hardWeight eta lambda b (hits N S chs n j) a).sum)
        else r.mapIdx fun j a => hardWeight eta lambda b (hits N S chs n j) a).map XR.fin) := by
    intro n hr cs r hk hne hpos hh
    have hp : ∀ x ∈ r.mapIdx fun j a => hardWeight eta lambda b (hits N S chs n j) a, 0 < x := by
      intro x hx
      obtain ⟨j, hj, rfl⟩ := List.mem_iff_getElem.1 hx
      simp only [List.getElem_mapIdx]
      exact hardWeight_pos he hla hb' _ (hpos _ (List.getElem_mem (by simpa using hj : j < r.length)))
    have hsum := sum_pos_of (by simpa using hne) hp
    refine ⟨hp, hsum, ?_⟩
    obtain ⟨m, hm⟩ := hsome n (by simp [Net.type, hk]) hh
    rw [h3 n cs _ m hk hm, hval n cs r m hk hpos hm]
    congr 1
    cases norm with
    | false => rfl
    | true => simp only [if_true]; exact (normalize_nonneg (fun x hx => (hp x hx).le) hsum).1
  have hsame : ∀ n, N.type n = .sum → (∀ j, hits N S chs n j = 0) → N'.kind n = N.kind n := fun n hs h0 => h2 n (Or.inr (hnone n hs h0))
  have hsh : OnlyWeights S N N' := by
    intro n
    cases hk : N.kind n with
    | product cs => exact (h2 n (Or.inl (by simp [Net.type, hk]))).trans hk
    | leaf l => exact (h2 n (Or.inl (by simp [Net.type, hk]))).trans hk
    | sum cs w =>
      have hs : N.type n = .sum := by simp [Net.type, hk]
      by_cases hh : ∃ j, hits N S chs n j ≠ 0
      · obtain ⟨j, hj⟩ := hh
        have hr := hreach n j hj
        obtain ⟨hne, r, rfl, hlen, hpos⟩ := hw n hr cs w hk
        obtain ⟨_, _, k3⟩ := hkind n hr cs r hk (by rintro rfl; simp at hlen; exact hne (List.length_eq_zero_iff.1 hlen.symm)) hpos ⟨j, hj⟩
        exact ⟨_, k3, by cases norm <;> simp, fun h => absurd hr h⟩
      · push Not at hh
        exact ⟨w, (hsame n hs hh).trans hk, rfl, fun _ => rfl⟩
  have hboth : ∀ n, Reach N.ch S n → ∀ cs w, N'.kind n = .sum cs w → cs ≠ [] ∧ ∃ r : List ℝ, w = r.map XR.fin ∧ r.length = cs.length ∧ (∀ x ∈ r, 0 < x) ∧ (norm = true → r.sum = 1) := by
    intro n hr cs w hk
    obtain ⟨w0, hk0, _⟩ := hsh.sum' hk
    have hs : N.type n = .sum := by simp [Net.type, hk0]
    obtain ⟨hne, r, rfl, hlen, hpos⟩ := hw n hr cs w0 hk0
    refine ⟨hne, ?_⟩
    by_cases hh : ∃ j, hits N S chs n j ≠ 0
    · obtain ⟨k1, k2, k3⟩ := hkind n hr cs r hk0 (by rintro rfl; simp at hlen; exact hne (List.length_eq_zero_iff.1 hlen.symm)) hpos hh
      rw [hk] at k3; simp only [Kind.sum.injEq, true_and] at k3
      refine ⟨_, k3, by cases norm <;> simp [hlen], ?_, ?_⟩
      · cases norm with
        | false => exact k1
        | true =>
          intro x hx
          simp only [if_true, List.mem_map] at hx
          obtain ⟨y, hy, rfl⟩ := hx
          exact div_pos (k1 y hy) k2
      · rintro rfl
        simp only [if_true]
        exact (normalize_nonneg (fun x hx => (k1 x hx).le) k2).2.2
    · push Not at hh
      rw [hsame n hs hh, hk0] at hk
      simp only [Kind.sum.injEq, true_and] at hk
      refine ⟨r, hk.symm, hlen, hpos, fun hnorm => ?_⟩
      obtain ⟨r0, w1, _, _, w4⟩ := hn hnorm n hr cs _ hk0
      rw [fin_map_injective w1]; exact w4
  refine ⟨⟨hsh, ?_⟩, ?_, ?_⟩
  · intro n hr cs w hk
    have hs : N.type n = .sum := by simp [Net.type, hk]
    refine ⟨hsame n hs, fun hh => ?_⟩
    obtain ⟨hne, r, rfl, hlen, hpos⟩ := hw n hr cs w hk
    obtain ⟨_, _, k3⟩ := hkind n hr cs r hk (by rintro rfl; simp at hlen; exact hne (List.length_eq_zero_iff.1 hlen.symm)) hpos hh
    refine ⟨r, _, rfl, by simp, k3, ?_⟩
    intro j a hj
    simp [hj, hardWeight]
  · intro n hr cs w hk
    rw [hsh.ch] at hr
    obtain ⟨q1, r, q2, q3, q4, _⟩ := hboth n hr cs w hk
    exact ⟨q1, r, q2, q3, q4⟩
  · intro hnorm n hr cs w hk
    rw [hsh.ch] at hr
    obtain ⟨q1, r, q2, q3, q4, q5⟩ := hboth n hr cs w hk
    exact ⟨r, q2, q3, fun x hx => (q4 x hx).le, q5 hnorm⟩

theorem HBatch.bounds {N : Net ι XR} {S : ι} {dtk : Int} {st : Storer ι XR} {chs : List (ι → Nat)} (hw : PosWeights N S) (hwf : st.WF) (hB : HBatch N S dtk st chs) :
    (∀ s, (st.deref (st.table dtk)) s ≠ none → N.type s = .sum → Reach N.ch S s) ∧
    ∀ s cs w, N.kind s = .sum cs w → ∀ m, (st.deref (st.table dtk)) s = some m → ∀ i, m i ≠ none → 0 ≤ i ∧ i < w.length := by
  have key : ∀ s m, (st.deref (st.table dtk)) s = some m → ∀ i, m i ≠ none → ∃ j : Nat, i = j ∧ N.type s = .sum ∧ hits N S chs s j ≠ 0 := by
    intro s m hm i hi
    have : m i = st.entry dtk s i := by rw [← deref_table]; simp [Table.entry, hm]
    rw [this] at hi
    by_contra hc
    refine hi (hB.others s i ?_)
    intro j hj hs
    by_contra hh
    exact hc ⟨j, hj, hs, hh⟩
  constructor
  · intro s hs _
    obtain ⟨m, hm⟩ := Option.ne_none_iff_exists'.1 hs
    obtain ⟨i, hi⟩ := hwf.row hm
    obtain ⟨j, _, _, hh⟩ := key s m hm i hi
    obtain ⟨ch, _, ht, _⟩ := hits_pos hh
    exact onTrace_reach ht
  · intro s cs w hk m hm i hi
    obtain ⟨j, rfl, _, hh⟩ := key s m hm i hi
    obtain ⟨ch, hc, ht, rfl⟩ := hits_pos hh
    obtain ⟨_, r, rfl, hlen, _⟩ := hw s (onTrace_reach ht) cs w hk
    have := hB.valid ch hc s cs _ ht hk
    exact ⟨by omega, by simp [hlen]; exact this⟩

theorem HBatch.reset {N : Net ι XR} {S : ι} {dtk itk : Int} {st : Storer ι XR} {chs : List (ι → Nat)} (hwf : st.WF) (hne : dtk ≠ itk) (hB : HBatch N S dtk st chs) :
    HBatch N S dtk (st.reset itk) chs := by
  have he : ∀ n l, (st.reset itk).entry dtk n l = st.entry dtk n l := fun n l => by rw [reset_entry hwf, if_neg hne]
  exact ⟨hB.nonneg, reset_table _ _ hB.table, hB.valid, fun n j => by rw [he]; exact hB.counted n j, fun n l => by rw [he]; exact hB.others n l⟩

theorem HBatch.clear {N N' : Net ι XR} {S : ι} {dtk : Int} {st : Storer ι XR} {chs : List (ι → Nat)} (hwf : st.WF) (hB : HBatch N S dtk st chs) :
    HBatch N' S dtk (st.reset dtk) [] := by
  have he : ∀ n l, (st.reset dtk).entry dtk n l = none := fun n l => by rw [reset_entry hwf, if_pos rfl]
  exact ⟨hB.nonneg, reset_table _ _ hB.table, by simp, fun n j _ h => absurd rfl h, fun n l _ => he n l⟩

/-- The conditions on the network and an instance for hard derivatives; they do not depend on weights. -/
structure HardNet (N : Net ι XR) (S : ι) : Prop where
  acyclic : Acyclic N.ch
  decomp : IsDecomposable N S
  leaves : LeavesAreLeaves N S

theorem HardNet.of {N N' : Net ι XR} {S : ι} (h : HardNet N S) (hs : OnlyWeights S N N') : HardNet N' S :=
  ⟨by rw [hs.ch]; exact h.acyclic, hs.decomposable h.decomp, hs.leaves h.leaves⟩

/-- What holds before every instance, `N0` being the network of the start. -/
structure HState (S : ι) (norm : Bool) (dtk itk : Int) (N0 : Net ι XR) (chs : List (ι → Nat)) (x : Net ι XR × Storer ι XR) : Prop where
  shape : OnlyWeights S N0 x.1
  weights : PosWeights x.1 S
  dist : norm = true → DistWeights x.1 S
  wf : x.2.WF
  vals : LogsAt itk x.2
  batch : HBatch x.1 S dtk x.2 chs

theorem logsAt_reset {itk : Int} {st : Storer ι XR} (hwf : st.WF) (h0 : 0 ≤ itk) (ht : st.table itk ≠ none) : LogsAt itk (st.reset itk) :=
  ⟨h0, reset_table _ _ ht, fun n x hx => by rw [reset_entry hwf, if_pos rfl] at hx; cases hx⟩

theorem Spec.HardRun.append {S : ι} {eta lambda b : ℝ} {norm : Bool} {D D' : List (List VarSet)} {N N' N'' : Net ι XR} (h : HardRun S eta lambda b norm D N N')
    (h' : HardRun S eta lambda b norm D' N' N'') : HardRun S eta lambda b norm (D ++ D') N N'' := by
  induction h with
  | nil N => exact h'
  | cons chs h1 h2 _ ih => exact .cons chs h1 h2 (ih h')

/-- One instance of `GenerativeHardGD`. -/
theorem hgdInstance_state {S : ι} {P : Params XR} {eta lambda : ℝ} (hP : P.lambda = .fin lambda) (he : 0 ≤ eta) (hla : lambda < 1 / 2) {norm : Bool} {dtk itk : Int} (hne : dtk ≠ itk)
    {mo : RangeOrder ι XR} (ho : RangesAll mo) (pick : Nat → ι → Nat → Nat) {N0 : Net ι XR} (hN : HardNet N0 S) {x : Net ι XR × Storer ι XR} (h : HState S norm dtk itk N0 [] x)
    {I : VarSet} (hI : LeavesEval N0 S I) (hM : LeavesMax N0 S I) :
    ∃ y, Net.hgdInstance S P (.fin eta) dtk itk norm mo pick x I = some y ∧ HState S norm dtk itk N0 [] y ∧
      ∃ ch, HardUpdate S eta lambda 1 norm [ch] x.1 y.1 ∧ (SiblingOrdered N0.ch S → IsMapTrace x.1 S I ch) := by
  obtain ⟨N, st⟩ := x
  have hN' := hN.of h.shape
  obtain ⟨r1, h1, hr1⟩ := hard_accumulate hN'.acyclic hN'.decomp hN'.leaves h.weights.nonneg (h.shape.leavesEval hI) (h.shape.leavesMax hM) h.wf h.vals hne h.batch
  obtain ⟨r2, ch, h2, h3, h4, h5, h6⟩ := hr1 (pick r1.2.next)
  rw [List.nil_append] at h5
  obtain ⟨b1, b2⟩ := h5.bounds h.weights h3
  obtain ⟨N', q1, q2, q3⟩ := applyHGD_spec N S (hgdWeight (.fin eta) (.fin lambda) (ofInt 1)) norm ho r2.2.next (r2.2.deref (r2.2.table dtk)) b1 b2
  obtain ⟨k1, k2, k3⟩ := hard_result h.weights h3 h5 (eta := eta) (lambda := lambda) (b := 1) (by norm_num) he hla h.dist q2 q3
  refine ⟨(N', (r2.2.reset itk).reset dtk), ?_, ⟨h.shape.trans k1.1, k2, k3, Storer.reset_wf (Storer.reset_wf h3 _) _, ?_, (h5.reset h3 hne).clear (Storer.reset_wf h3 _)⟩, ch, ?_, ?_⟩
  · simp only [Net.hgdInstance, h1, h2, Option.bind_some, hP, q1, Option.map_some]
  · have := logsAt_reset h3 h.vals.nonneg h4
    refine ⟨this.nonneg, reset_table _ _ this.table, fun n x hx => ?_⟩
    rw [reset_entry (Storer.reset_wf h3 _), if_neg (Ne.symm hne)] at hx
    exact this.logs n x hx
  · simpa using k1
  · rw [← h.shape.ch]; exact h6

/-- Applying the counts of a block of `GenerativeHardBGD`. -/
theorem hbgd_close {S : ι} {eta lambda : ℝ} (he : 0 ≤ eta) (hla : lambda < 1 / 2) {norm : Bool} {dtk itk : Int} (hne : dtk ≠ itk) {b : Nat} (hb : 0 < b)
    {mo : RangeOrder ι XR} (ho : RangesAll mo) {N0 : Net ι XR} {x : Net ι XR × Storer ι XR} {chs : List (ι → Nat)} (h : HState S norm dtk itk N0 chs x) :
    ∃ y, Net.applyReset (hgdWeight (.fin eta) (.fin lambda) (ofInt b)) dtk norm mo x = some y ∧ HState S norm dtk itk N0 [] y ∧ HardUpdate S eta lambda b norm chs x.1 y.1 := by
  obtain ⟨N, st⟩ := x
  obtain ⟨b1, b2⟩ := h.batch.bounds h.weights h.wf
  obtain ⟨N', q1, q2, q3⟩ := applyFast_spec N (hgdWeight (.fin eta) (.fin lambda) (ofInt b)) norm ho st.next (st.deref (st.table dtk)) b2
  obtain ⟨k1, k2, k3⟩ := hard_result h.weights h.wf h.batch (eta := eta) (lambda := lambda) (b := b) (by exact_mod_cast hb) he hla h.dist q2 q3
  refine ⟨(N', st.reset dtk), by simp only [Net.applyReset, q1, Option.map_some], ⟨h.shape.trans k1.1, k2, k3, Storer.reset_wf h.wf _, ?_, h.batch.clear h.wf⟩, by simpa using k1⟩
  refine ⟨h.vals.nonneg, reset_table _ _ h.vals.table, fun n x hx => ?_⟩
  rw [reset_entry h.wf, if_neg (Ne.symm hne)] at hx
  exact h.vals.logs n x hx

/-- What holds between two instances of an epoch of `GenerativeHardBGD` that began with `N1`. -/
structure HBState (ex : Prop) (S : ι) (eta lambda : ℝ) (b : Nat) (norm : Bool) (dtk itk : Int) (N0 N1 : Net ι XR) (done : List VarSet) (x : (Net ι XR × Storer ι XR) × Int) : Prop where
  count : x.2 = done.length
  parts : ∃ (blocks : List (List VarSet)) (cur : List VarSet) (chs : List (ι → Nat)), done = blocks.flatten ++ cur ∧ (∀ B ∈ blocks, B.length = b) ∧ cur.length < b ∧
    (ex → HardRun S eta lambda b norm blocks N1 x.1.1) ∧ HState S norm dtk itk N0 chs x.1 ∧ List.Forall₂ (fun I ch => ex → IsMapTrace x.1.1 S I ch) cur chs ∧ (cur = [] → chs = [])

theorem forall₂_imp_hyp {α β : Type} {R : α → β → Prop} {p : Prop} {l : List α} {l' : List β} (h : List.Forall₂ (fun a b => p → R a b) l l') (hp : p) : List.Forall₂ R l l' :=
  h.imp fun _ _ h => h hp

theorem hbgdInstance_state {ex : Prop} {S : ι} {P : Params XR} {eta lambda : ℝ} (hP : P.lambda = .fin lambda) (he : 0 ≤ eta) (hla : lambda < 1 / 2) {norm : Bool} {dtk itk : Int} (hne : dtk ≠ itk)
    {b : Nat} (hb : 0 < b) {mo : RangeOrder ι XR} (ho : RangesAll mo) (pick : Nat → ι → Nat → Nat) {N0 N1 : Net ι XR} (hN : HardNet N0 S) (hx : ex → SiblingOrdered N0.ch S)
    {done : List VarSet} {x : (Net ι XR × Storer ι XR) × Int} (h : HBState ex S eta lambda b norm dtk itk N0 N1 done x) {I : VarSet} (hI : LeavesEval N0 S I) (hM : LeavesMax N0 S I) :
    ∃ y, Net.hbgdInstance S P (.fin eta) dtk itk norm b mo pick x I = some y ∧ HBState ex S eta lambda b norm dtk itk N0 N1 (done ++ [I]) y := by
  obtain ⟨⟨N, st⟩, i⟩ := x
  obtain ⟨hc, blocks, cur, chs, hdone, hbl, hcur, hrun, hS, hg, _⟩ := h
  dsimp only at *
  have hN' := hN.of hS.shape
  obtain ⟨r1, h1, hr1⟩ := hard_accumulate hN'.acyclic hN'.decomp hN'.leaves hS.weights.nonneg (hS.shape.leavesEval hI) (hS.shape.leavesMax hM) hS.wf hS.vals hne hS.batch
  obtain ⟨r2, ch, h2, h3, h4, h5, h6⟩ := hr1 (pick r1.2.next)
  have hS' : HState S norm dtk itk N0 (chs ++ [ch]) (N, r2.2.reset itk) :=
    ⟨hS.shape, hS.weights, hS.dist, Storer.reset_wf h3 _, logsAt_reset h3 hS.vals.nonneg h4, h5.reset h3 hne⟩
  have hg' : List.Forall₂ (fun I ch => ex → IsMapTrace N S I ch) (cur ++ [I]) (chs ++ [ch]) :=
    List.rel_append hg (.cons (fun hex => h6 (by rw [hS.shape.ch]; exact hx hex)) .nil)
  have hlen : done.length = blocks.length * b + cur.length := by
    rw [hdone, List.length_append, List.length_flatten, List.map_congr_left hbl]
    simp
  have hdvd : b ∣ (done.length + 1) ↔ cur.length + 1 = b := by
    rw [hlen, Nat.add_assoc, Nat.dvd_add_right (Nat.dvd_mul_left _ _)]
    constructor
    · intro hdv
      have := Nat.le_of_dvd (by omega) hdv
      omega
    · intro e; rw [e]
  have hgo : goDvd (i + 1) b = some (decide (cur.length + 1 = b)) := by
    rw [hc, ← Nat.cast_succ, goDvd_nat _ _ hb]
    simp only [Nat.succ_eq_add_one, hdvd]
  simp only [Net.hbgdInstance, h1, h2, Option.bind_some, hgo, decide_eq_true_eq]
  by_cases hfull : cur.length + 1 = b
  · rw [if_pos hfull, hP]
    obtain ⟨y, q1, q2, q3⟩ := hbgd_close he hla hne hb ho hS'
    rw [q1]
    refine ⟨_, rfl, by simp [hc], blocks ++ [cur ++ [I]], [], [], by simp [hdone], ?_, by simpa using hb, ?_, q2, .nil, fun _ => rfl⟩
    · intro B hB'
      rcases List.mem_append.1 hB' with h' | h'
      · exact hbl B h'
      · simp at h'; subst h'; simpa using hfull
    · exact fun hex => (hrun hex).append (.cons _ (forall₂_imp_hyp hg' hex) q3 (.nil _))
  · rw [if_neg hfull]
    exact ⟨_, rfl, by simp [hc], blocks, cur ++ [I], chs ++ [ch], by simp [hdone], hbl, by simp; omega, hrun, hS', hg', by simp⟩

theorem hbgdFold_state {ex : Prop} {S : ι} {P : Params XR} {eta lambda : ℝ} (hP : P.lambda = .fin lambda) (he : 0 ≤ eta) (hla : lambda < 1 / 2) {norm : Bool} {dtk itk : Int} (hne : dtk ≠ itk)
    {b : Nat} (hb : 0 < b) {mo : RangeOrder ι XR} (ho : RangesAll mo) (pick : Nat → ι → Nat → Nat) {N0 N1 : Net ι XR} (hN : HardNet N0 S) (hx : ex → SiblingOrdered N0.ch S) :
    ∀ (data done : List VarSet) (x : (Net ι XR × Storer ι XR) × Int), HBState ex S eta lambda b norm dtk itk N0 N1 done x → (∀ I ∈ data, LeavesEval N0 S I ∧ LeavesMax N0 S I) →
    ∃ y, data.foldlM (Net.hbgdInstance S P (.fin eta) dtk itk norm b mo pick) x = some y ∧ HBState ex S eta lambda b norm dtk itk N0 N1 (done ++ data) y := by
  intro data
  induction data with
  | nil => intro done x h _; exact ⟨x, rfl, by simpa using h⟩
  | cons I data ih =>
    intro done x h hI
    obtain ⟨y, h1, h2⟩ := hbgdInstance_state hP he hla hne hb ho pick hN hx h (hI I (by simp)).1 (hI I (by simp)).2
    obtain ⟨z, g1, g2⟩ := ih _ y h2 (fun J hJ => hI J (by simp [hJ]))
    exact ⟨z, by rw [List.foldlM_cons, h1]; exact g1, by simpa using g2⟩

theorem hbgdEpoch_state {ex : Prop} {S : ι} {P : Params XR} {eta lambda : ℝ} (hP : P.lambda = .fin lambda) (he : 0 ≤ eta) (hla : lambda < 1 / 2) {norm : Bool} {dtk itk : Int} (hne : dtk ≠ itk)
    {b : Nat} (hb : 0 < b) {mo : RangeOrder ι XR} (ho : RangesAll mo) (pick : Nat → ι → Nat → Nat) {N0 : Net ι XR} (hN : HardNet N0 S) (hx : ex → SiblingOrdered N0.ch S)
    (data : List VarSet) (hI : ∀ I ∈ data, LeavesEval N0 S I ∧ LeavesMax N0 S I) {x : Net ι XR × Storer ι XR} (h : HState S norm dtk itk N0 [] x) :
    ∃ y, Net.hbgdEpoch S P (.fin eta) dtk itk norm b mo pick data x = some y ∧ HState S norm dtk itk N0 [] y ∧
      (ex → ∃ blocks, IsBlocking b data blocks ∧ HardRun S eta lambda b norm blocks x.1 y.1) := by
  obtain ⟨y1, h1, h2⟩ := hbgdFold_state (ex := ex) (P := P) hP he hla hne hb ho pick (N1 := x.1) hN hx data [] (x, 0)
    ⟨rfl, [], [], [], rfl, by simp, by simpa using hb, fun _ => .nil _, h, .nil, fun _ => rfl⟩ hI
  obtain ⟨y0, i⟩ := y1
  obtain ⟨hc, blocks, cur, chs, hdone, hbl, hcur, hrun, hS, hg, hnil⟩ := h2
  simp only [List.nil_append] at hc hdone
  dsimp only at *
  have hlen : data.length = blocks.length * b + cur.length := by
    rw [hdone, List.length_append, List.length_flatten, List.map_congr_left hbl]
    simp
  have hdvd : b ∣ data.length ↔ cur = [] := by
    rw [hlen, Nat.dvd_add_right (Nat.dvd_mul_left _ _)]
    constructor
    · intro hdv
      have := Nat.eq_zero_of_dvd_of_lt hdv hcur
      exact List.length_eq_zero_iff.1 this
    · rintro rfl; simp
  have hgo : goDvd i b = some (decide (cur = [])) := by
    rw [hc, goDvd_nat _ _ hb]; simp only [hdvd]
  have hnb : ∀ B ∈ blocks, B ≠ [] ∧ B.length ≤ b := fun B hB' => ⟨by rintro rfl; have := hbl _ hB'; simp at this; omega, (hbl B hB').le⟩
  simp only [Net.hbgdEpoch, h1, Option.bind_some, hgo, decide_eq_true_eq]
  by_cases hcur0 : cur = []
  · rw [if_pos hcur0]
    have := hnil hcur0
    subst hcur0; subst this
    exact ⟨_, rfl, hS, fun hex => ⟨blocks, ⟨by simpa using hdone.symm, hnb, fun B hB' => hbl B (List.dropLast_subset _ hB')⟩, hrun hex⟩⟩
  · rw [if_neg hcur0, hP]
    obtain ⟨y, q1, q2, q3⟩ := hbgd_close he hla hne hb ho hS
    rw [q1]
    refine ⟨_, rfl, q2, fun hex => ⟨blocks ++ [cur], ⟨by simp [hdone], ?_, by simpa using hbl⟩, (hrun hex).append (.cons _ (forall₂_imp_hyp hg hex) q3 (.nil _))⟩⟩
    intro B hB'
    rcases List.mem_append.1 hB' with h' | h'
    · exact hnb B h'
    · simp at h'; subst h'; exact ⟨hcur0, hcur.le⟩

end Hard
end Gospn
