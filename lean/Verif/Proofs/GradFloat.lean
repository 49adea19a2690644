import Verif.Proofs.RoundMax
import Verif.Props.Derive
import Verif.Proofs.Learn
import Verif.Spec.GradFloat
/-!
`DeriveSPN` and `DeriveWeights` under rounding.
-/
set_option linter.unusedSectionVars false
set_option linter.unusedSimpArgs false
namespace Gospn
open Spec

/-! ### The derivative table as a pure fold -/

section Tab
variable {ι F : Type} [DecidableEq ι] [GoFloat F]

/-- What `deriveStore` does to the table. -/
def accOne (tab : ι → Option F) (c : ι) (t : F) : ι → Option F :=
  Function.update tab c (some (match tab c with | none => t | some v => logSumExpPair v t))

/-- What `deriveStep` does to the table, given the stored values `inf`. -/
def Net.accKind (N : Net ι F) (inf : ι → F) (tab : ι → Option F) (s : ι) : Option (ι → Option F) :=
  match N.kind s with
  | .sum ch w => ch.zipIdx.foldlM (fun t ci => (w[ci.2]?).bind fun wi => some (accOne t ci.1 (GoFloat.add (GoFloat.log wi) ((tab s).getD (GoFloat.ofInt 0))))) tab
  | .product ch => ch.zipIdx.foldlM (fun t ci => some (accOne t ci.1 (((ch.eraseIdx ci.2).map inf).foldl GoFloat.add ((tab s).getD (GoFloat.ofInt 0))))) tab
  | .leaf _ => some tab

theorem foldlM_sim {σ τ β : Type} (f : σ → β → Option σ) (g : τ → β → Option τ) (p : σ → τ) (Inv : σ → Prop) : ∀ (l : List β),
    (∀ s, ∀ x ∈ l, Inv s → (f s x).map p = g (p s) x ∧ ∀ s', f s x = some s' → Inv s') → ∀ s, Inv s →
    (l.foldlM f s).map p = l.foldlM g (p s) ∧ ∀ s', l.foldlM f s = some s' → Inv s' := by
  intro l
  induction l with
  | nil => intro _ s hs; exact ⟨rfl, fun s' h => by cases h; exact hs⟩
  | cons x l ih =>
    intro h s hs
    obtain ⟨h1, h2⟩ := h s x (by simp) hs
    rw [List.foldlM_cons, List.foldlM_cons, ← h1]
    cases hf : f s x with
    | none => exact ⟨rfl, fun s' h => by cases h⟩
    | some s1 => exact ih (fun s y hy => h s y (by simp [hy])) s1 (h2 s1 hf)

theorem siblingProd_eq (inf : Table ι F) (pv : F) (ch : List ι) (i : Nat) :
    siblingProd inf pv ch i = ((ch.eraseIdx i).map fun c => (inf.entry c 0).getD (GoFloat.ofInt 0)).foldl GoFloat.add pv := by
  have late : ∀ (l : List ι) (j i : Nat) (pv : F), i < j →
      (l.zipIdx j).foldl (fun t cj => if cj.2 ≠ i then GoFloat.add t ((inf.entry cj.1 0).getD (GoFloat.ofInt 0)) else t) pv =
        (l.map fun c => (inf.entry c 0).getD (GoFloat.ofInt 0)).foldl GoFloat.add pv := by
    intro l
    induction l with
    | nil => intros; rfl
    | cons c l ih =>
      intro j i pv h
      rw [List.zipIdx_cons, List.foldl_cons, if_pos (show j ≠ i by omega), ih (j + 1) i _ (by omega)]
      rfl
  have key : ∀ (l : List ι) (j i : Nat) (pv : F),
      (l.zipIdx j).foldl (fun t cj => if cj.2 ≠ j + i then GoFloat.add t ((inf.entry cj.1 0).getD (GoFloat.ofInt 0)) else t) pv =
        ((l.eraseIdx i).map fun c => (inf.entry c 0).getD (GoFloat.ofInt 0)).foldl GoFloat.add pv := by
    intro l
    induction l with
    | nil => intros; rfl
    | cons c l ih =>
      intro j i pv
      rw [List.zipIdx_cons, List.foldl_cons]
      cases i with
      | zero =>
        rw [if_neg (by simp), late l (j + 1) (j + 0) _ (by omega)]
        rfl
      | succ i =>
        rw [if_pos (show j ≠ j + (i + 1) by omega), show j + (i + 1) = (j + 1) + i by omega, ih (j + 1) i]
        rfl
  have := key ch 0 i pv
  rw [Nat.zero_add] at this
  exact this

theorem deriveStore_tab [Fintype ι] (a : Nat) (l : List ι) (st0 st : Storer ι F) (c : ι) (t : F) (hc : c ∈ l) (hf : FrameAt a l st0 st) :
    (deriveStore (some a) st c t).map (tab0 a) = some (accOne (tab0 a st) c t) ∧ ∀ st', deriveStore (some a) st c t = some st' → FrameAt a l st0 st' := by
  have hd : (st.deref (some a)).entry c 0 = tab0 a st c := rfl
  have key : ∀ v, (st.tableStore (some a) c 0 v).map (tab0 a) = some (Function.update (tab0 a st) c (some v)) ∧
      ∀ st', st.tableStore (some a) c 0 v = some st' → FrameAt a l st0 st' := by
    intro v
    obtain ⟨st1, h1⟩ : ∃ st1, st.tableStore (some a) c 0 v = some st1 := ⟨_, rfl⟩
    refine ⟨by rw [h1, Option.map_some, tab0_store a st st1 c v h1], fun st' h => hf.trans ((FrameAt.store h).mono (by simpa using hc))⟩
  unfold deriveStore accOne
  rw [hd]
  cases tab0 a st c <;> exact key _

theorem deriveStep_tab [Fintype ι] (N : Net ι F) {a ai : Nat} (hai : ai ≠ a) (st0 st : Storer ι F) (hf : FrameAt a Finset.univ.toList st0 st) (s : ι) :
    (N.deriveStep (some a) (some ai) st s).map (tab0 a) = N.accKind (fun c => ((st0.heap ai).entry c 0).getD (GoFloat.ofInt 0)) (tab0 a st) s ∧
      ∀ st', N.deriveStep (some a) (some ai) st s = some st' → FrameAt a Finset.univ.toList st0 st' := by
  have hd : (st.deref (some a)).entry s 0 = tab0 a st s := rfl
  unfold Net.deriveStep Net.accKind
  simp only [hd]
  cases N.kind s with
  | leaf l => exact ⟨rfl, fun st' h => by cases h; exact hf⟩
  | sum ch w =>
    refine foldlM_sim _ _ _ (FrameAt a Finset.univ.toList st0) _ (fun st1 ci _ h1 => ?_) st hf
    cases w[ci.2]? with
    | none => exact ⟨rfl, fun st' h => by cases h⟩
    | some wi => exact deriveStore_tab a _ st0 st1 ci.1 _ (by simp) h1
  | product ch =>
    refine foldlM_sim _ _ _ (FrameAt a Finset.univ.toList st0) _ (fun st1 ci _ h1 => ?_) st hf
    have e : st1.deref (some ai) = st0.heap ai := h1.others ai hai
    rw [e, siblingProd_eq]
    exact deriveStore_tab a _ st0 st1 ci.1 _ (by simp) h1

/-- `DeriveSPN` with a new ticket as a pure fold over the nodes in the order of the search. -/
theorem derive_tab [Fintype ι] (N : Net ι F) (S : ι) (st : Storer ι F) (hw : st.WF) (itk : Int) (hne : itk ≠ st.tickets) (hi : st.table itk ≠ none) (isStack : Bool) :
    (N.deriveSPN S st (-1) itk isStack).map (fun r => fun n => r.2.entry st.tickets n 0) =
        (workOrder N.innerCh isStack S).foldlM (N.accKind fun c => (st.entry itk c 0).getD (GoFloat.ofInt 0)) (fun n => if n = S then some (GoFloat.ofInt 0) else none) ∧
      ∀ r, N.deriveSPN S st (-1) itk isStack = some r → r.1 = st.tickets ∧ r.2.WF ∧ r.2.tickets = st.tickets + 1 ∧
        ∀ k, k ≠ (st.tickets : Int) → ∀ n i, r.2.entry k n i = st.entry k n i := by
  have hu : usedTicket st (-1) = st.tickets := by simp [usedTicket]
  obtain ⟨h1, a, h2, h3, h4, h5⟩ := dpStart_spec hw (tk := -1) (Or.inl (by omega))
  rw [hu] at h1 h2 h4 h5
  have e : newIfNeg (-1) st = dpStart st (-1) := rfl
  have etk : (dpStart st (-1)).2.tickets = st.tickets + 1 := rfl
  obtain ⟨ai, hai⟩ : ∃ ai, (dpStart st (-1)).2.table itk = some ai := by
    obtain ⟨ai, h⟩ := Option.ne_none_iff_exists'.1 hi
    refine ⟨ai, ?_⟩
    show Function.update st.tables _ _ itk = _
    rw [Function.update_of_ne hne]
    exact h
  generalize dpStart st (-1) = d at h1 h2 h3 h4 h5 e etk hai
  have hne' : ai ≠ a := by
    rintro rfl
    exact hne (h3.inj _ _ _ hai h2)
  have hinf : (fun c => ((d.2.heap ai).entry c 0).getD (GoFloat.ofInt 0)) = fun c => (st.entry itk c 0).getD (GoFloat.ofInt 0) := by
    funext c
    rw [← h4 itk hne c 0, entry_tab0 hai]
    rfl
  obtain ⟨st1, hs1⟩ : ∃ st1, d.2.tableStore (some a) S 0 (GoFloat.ofInt 0) = some st1 := ⟨_, rfl⟩
  have h0 := tab0_store a d.2 st1 S _ hs1
  have hf1 : FrameAt a Finset.univ.toList d.2 st1 := (FrameAt.store hs1).mono (by simp)
  have ht1 : tab0 a st1 = fun n => if n = S then some (GoFloat.ofInt 0) else none := by
    funext n
    rw [h0]
    by_cases hn : n = S
    · subst hn
      simp
    · have := h5 n 0
      rw [entry_tab0 h2] at this
      simp [hn, this]
  obtain ⟨g1, g2⟩ := foldlM_sim (N.deriveStep (some a) (some ai)) (N.accKind fun c => ((d.2.heap ai).entry c 0).getD (GoFloat.ofInt 0)) (tab0 a)
    (FrameAt a Finset.univ.toList d.2) (workOrder N.innerCh isStack S) (fun s x _ hs => deriveStep_tab N hne' d.2 s hs x) st1 hf1
  have hrun : N.deriveSPN S st (-1) itk isStack = ((workOrder N.innerCh isStack S).foldlM (N.deriveStep (some a) (some ai)) st1).map fun s => ((st.tickets : Int), s) := by
    unfold Net.deriveSPN
    rw [e]
    simp only [h1, h2, hai, hs1, Option.bind_some]
    rw [work, workLoop_static _ (N.deriveStep (some a) (some ai)) N.innerCh (fun _ _ => rfl)]
    rfl
  rw [hrun, ← hinf, ← ht1, ← g1]
  refine ⟨?_, ?_⟩
  · cases hr : (workOrder N.innerCh isStack S).foldlM (N.deriveStep (some a) (some ai)) st1 with
    | none => rfl
    | some st2 =>
      simp only [Option.map_some]
      congr 1
      funext n
      exact (frame_entries h3 h2 (g2 st2 hr)).2.2 n
  · intro r hr
    obtain ⟨st2, h6, rfl⟩ := Option.map_eq_some_iff.1 hr
    have hf2 := g2 st2 h6
    exact ⟨rfl, hf2.wf h3, by rw [hf2.tickets, etk], fun k hk n i => by rw [(frame_entries h3 h2 hf2).1 k hk, h4 k hk]⟩

end Tab

/-! ### The sum of two logarithms -/

section Pair
variable {F : Type} [GoFloat F] {val : F → XR} {B ε : ℝ}

theorem Spec.RoundsOn.shrink (hR : RoundsOn val B ε) {B' : ℝ} (h : B' ≤ B) : RoundsOn val B' ε :=
  { zero := hR.zero, ninf := hR.ninf, lt := hR.lt, isInf := hR.isInf, add_left := hR.add_left, add_right := hR.add_right, sub_left := hR.sub_left, exp := hR.exp, exp_ninf := hR.exp_ninf,
    log_zero := hR.log_zero,
    add := fun a b x y ha hb hx hy => hR.add a b x y ha hb (le_trans hx h) (le_trans hy h),
    sub := fun a b x y ha hb hx hy => hR.sub a b x y ha hb (le_trans hx h) (le_trans hy h),
    log := fun a x ha hx hl => hR.log a x ha hx (le_trans hl h) }

/-- `LogSumExpPair` after its arguments have been put in order. -/
theorem pair_core (hR : RoundsOn val B ε) (hP : PairFloat val) (h8 : 8 * ε ≤ 1) (hB : 3 ≤ B) {mx mn : F} (hx : IsLogProb (val mx)) (hn : IsLogProb (val mn))
    (hle : unlog (val mn) ≤ unlog (val mx)) (hxB : absVal (val mx) ≤ B) (hnB : absVal (val mn) ≤ B) :
    Within (10 * ε) (val (if GoFloat.isInf mx then mx else if GoFloat.isInf mn then mx else GoFloat.add (GoFloat.log (GoFloat.add (GoFloat.ofInt 1) (GoFloat.exp (GoFloat.sub mn mx)))) mx))
      (if XR.isInf (val mx) then val mx else if XR.isInf (val mn) then val mx else XR.add (XR.log (XR.add (.fin 1) (XR.exp (XR.sub (val mn) (val mx))))) (val mx)) := by
  have hε := hR.eps_nonneg
  rw [hR.isInf, hR.isInf]
  rcases IsLogProb.cases hx with hx' | ⟨x, hx'⟩
  · rw [hx']
    simp only [XR.isInf, if_true]
    rw [hx']
    trivial
  rcases IsLogProb.cases hn with hn' | ⟨y, hn'⟩
  · rw [hx', hn']
    simp only [XR.isInf, if_true, Bool.false_eq_true, if_false]
    rw [hx']
    show |x - x| ≤ _
    rw [sub_self, abs_zero]
    linarith
  rw [hx', hn'] at hle ⊢
  rw [hx'] at hxB
  rw [hn'] at hnB
  simp only [unlog_fin, Real.exp_le_exp] at hle
  simp only [absVal] at hxB hnB
  simp only [XR.isInf, Bool.false_eq_true, if_false]
  obtain ⟨z1, k1, e1⟩ := hR.sub mn mx y x hn' hx' hnB hxB
  have hz1 : z1 ≤ 1 := by
    have := (abs_le.1 e1).2
    linarith
  obtain ⟨z2, k2, e2⟩ := hR.exp _ z1 k1 hz1
  have e2' := exp_sub_le hε (by linarith) (show y - x ≤ 0 by linarith) e1
  have hE0 := Real.exp_pos (y - x)
  have hE1 : Real.exp (y - x) ≤ 1 := Real.exp_le_one_iff.2 (by linarith)
  have e3 : |z2 - Real.exp (y - x)| ≤ 3 * ε := by
    have := abs_sub_le z2 (Real.exp z1) (Real.exp (y - x))
    linarith
  have hz2 : |z2| ≤ B := by
    have := abs_le.1 e3
    rw [abs_le]
    constructor <;> linarith
  obtain ⟨z3, k3, e4⟩ := hR.add (GoFloat.ofInt 1) _ 1 z2 hP.one k2 (by rw [abs_one]; linarith) hz2
  have e5 : |z3 - (1 + Real.exp (y - x))| ≤ 4 * ε := by
    have := abs_sub_le z3 (1 + z2) (1 + Real.exp (y - x))
    have h' : 1 + z2 - (1 + Real.exp (y - x)) = z2 - Real.exp (y - x) := by ring
    rw [h'] at this
    linarith
  have hz3 : 0 < z3 := by
    have := (abs_le.1 e5).1
    linarith
  have e6 := log_sub_le (show 1 ≤ 1 + Real.exp (y - x) by linarith) (show 4 * ε ≤ 1 / 2 by linarith) e5
  have hl0 : 0 ≤ Real.log (1 + Real.exp (y - x)) := Real.log_nonneg (by linarith)
  have hl1 : Real.log (1 + Real.exp (y - x)) ≤ 1 := by
    have := Real.log_le_sub_one_of_pos (show 0 < 1 + Real.exp (y - x) by linarith)
    linarith
  obtain ⟨z4, k4, e7⟩ := hR.log _ z3 k3 hz3 (by
    have := abs_le.1 e6
    rw [abs_le]
    constructor <;> linarith)
  have e8 : |z4 - Real.log (1 + Real.exp (y - x))| ≤ 9 * ε := by
    have := abs_sub_le z4 (Real.log z3) (Real.log (1 + Real.exp (y - x)))
    linarith
  obtain ⟨z5, k5, e9⟩ := hR.add _ mx z4 x k4 hx' (by
    have := abs_le.1 e8
    rw [abs_le]
    constructor <;> linarith) hxB
  rw [k5]
  have hX : XR.add (XR.log (XR.add (.fin 1) (XR.exp (XR.sub (.fin y) (.fin x))))) (.fin x) = .fin (Real.log (1 + Real.exp (y - x)) + x) := by
    show XR.add (XR.log (.fin (1 + Real.exp (y - x)))) (.fin x) = _
    rw [XR.log_pos (by linarith)]
    rfl
  rw [hX]
  show |z5 - (Real.log (1 + Real.exp (y - x)) + x)| ≤ _
  have := abs_sub_le z5 (z4 + x) (Real.log (1 + Real.exp (y - x)) + x)
  have h' : z4 + x - (Real.log (1 + Real.exp (y - x)) + x) = z4 - Real.log (1 + Real.exp (y - x)) := by ring
  rw [h'] at this
  linarith

theorem pair_round (hR : RoundsOn val B ε) (hP : PairFloat val) (h8 : 8 * ε ≤ 1) (hB : 3 ≤ B) {l r : F} (hl : IsLogProb (val l)) (hr : IsLogProb (val r))
    (hlB : absVal (val l) ≤ B) (hrB : absVal (val r) ≤ B) : Within (10 * ε) (val (logSumExpPair l r)) (logSumExpPair (val l) (val r)) := by
  have hxle : (GoFloat.le (val r) (val l) : Bool) = (XR.lt (val r) (val l) || XR.eq (val r) (val l)) := rfl
  have hone : (GoFloat.ofInt 1 : XR) = .fin 1 := by simp
  unfold logSumExpPair
  rw [hP.le, hxle, hone]
  cases hb : (XR.lt (val r) (val l) || XR.eq (val r) (val l)) with
  | true =>
    simp only [if_true]
    refine pair_core hR hP h8 hB hl hr ?_ hlB hrB
    rcases IsLogProb.cases hl with h1 | ⟨x, h1⟩ <;> rcases IsLogProb.cases hr with h2 | ⟨y, h2⟩ <;> rw [h1, h2] at hb ⊢
    · simp [XR.lt, XR.eq] at hb
    · simp only [unlog_ninf]; exact (Real.exp_pos _).le
    · simp only [unlog_fin, Real.exp_le_exp]
      simp [XR.lt, XR.eq] at hb
      rcases hb with h | h <;> linarith
  | false =>
    simp only [Bool.false_eq_true, if_false]
    refine pair_core hR hP h8 hB hr hl ?_ hrB hlB
    rcases IsLogProb.cases hl with h1 | ⟨x, h1⟩ <;> rcases IsLogProb.cases hr with h2 | ⟨y, h2⟩ <;> rw [h1, h2] at hb ⊢
    · simp only [unlog_ninf]; exact (Real.exp_pos _).le
    · simp [XR.lt, XR.eq] at hb
    · simp only [unlog_fin, Real.exp_le_exp]
      simp [XR.lt, XR.eq] at hb
      exact hb.1

theorem pair_list {x y : XR} (hx : IsLogProb x) (hy : IsLogProb y) : logSumExp [x, y] = some (logSumExpPair x y) := by
  obtain ⟨r, h1, h2, h3⟩ := logSumExp_spec (show [x, y] ≠ [] by simp) (by simp [hx, hy])
  obtain ⟨g1, g2⟩ := logSumExpPair_spec hx hy
  rw [h1, unlog_inj h2 g1 (by rw [h3, g2]; simp)]

theorem pair_absVal {x y : XR} {m : ℝ} (hx : IsLogProb x) (hy : IsLogProb y) (hm : 0 ≤ m) (h1 : absVal x ≤ m) (h2 : absVal y ≤ m) : absVal (logSumExpPair x y) ≤ m + Real.log 2 := by
  have := lse_absVal (zs := [x, y]) (m := m) (K := 2) (by simp) (by simp [hx, hy, h1, h2]) (by simp) hm (pair_list hx hy)
  exact_mod_cast this

theorem within_absVal {e : ℝ} {x y : XR} (h : Within e x y) (he : 0 ≤ e) : absVal x ≤ absVal y + e := by
  rcases h.cases with ⟨rfl, rfl⟩ | ⟨a, b, rfl, rfl, hab⟩
  · simp only [absVal]; linarith
  · simp only [absVal]
    have := abs_sub_abs_le_abs_sub a b
    linarith

theorem within_trans {e d : ℝ} {x y z : XR} (h1 : Within e x y) (h2 : Within d y z) : Within (e + d) x z := by
  rcases h1.cases with ⟨rfl, rfl⟩ | ⟨a, b, rfl, rfl, hab⟩ <;> rcases h2.cases with ⟨h, rfl⟩ | ⟨a', b', h, rfl, hab'⟩
  · trivial
  · cases h
  · cases h
  · cases h
    show |a - b'| ≤ _
    have := abs_sub_le a b b'
    linarith

theorem pair_close (hR : RoundsOn val B ε) (hP : PairFloat val) (h8 : 8 * ε ≤ 1) (hB : 3 ≤ B) {l r : F} {x y : XR} {e : ℝ} (he : 0 ≤ e) (hl : Within e (val l) x) (hr : Within e (val r) y)
    (hx : absVal x + e ≤ B) (hy : absVal y + e ≤ B) : Within (e + 10 * ε) (val (logSumExpPair l r)) (logSumExpPair x y) := by
  have h1 := pair_round hR hP h8 hB hl.isLogProb.1 hr.isLogProb.1 (le_trans (within_absVal hl he) hx) (le_trans (within_absVal hr he) hy)
  obtain ⟨a, b, g1, g2, g3⟩ := lse_lipschitz (xs := [val l, val r]) (ys := [x, y]) (List.Forall₂.cons hl (List.Forall₂.cons hr List.Forall₂.nil)) (by simp)
  rw [pair_list hl.isLogProb.1 hr.isLogProb.1] at g1
  rw [pair_list hl.isLogProb.2 hr.isLogProb.2] at g2
  cases g1
  cases g2
  rw [add_comm]
  exact within_trans h1 g3

end Pair

/-! ### Errors in the derivative table -/

section Sim
variable {ι F : Type} [DecidableEq ι] [Fintype ι] [GoFloat F] {val : F → XR} {B ε : ℝ}

/-- Entries are there in both tables or in neither, and after `k n` contributions the one of `n` is off by `A·(b n + k n)` and of size `L·(b n + k n)`. -/
def TabClose (val : F → XR) (A L : ℝ) (b : ι → ℝ) (k : ι → ℕ) (tF : ι → Option F) (tX : ι → Option XR) : Prop :=
  ∀ n, match tF n, tX n with
    | none, none => True
    | some v, some y => Within (A * (b n + k n)) (val v) y ∧ absVal y ≤ L * (b n + k n)
    | _, _ => False

theorem tabClose_one (hR : RoundsOn val B ε) (hP : PairFloat val) (h8 : 8 * ε ≤ 1) (hB : 3 ≤ B) {A L : ℝ} {b : ι → ℝ} {k : ι → ℕ} {tF : ι → Option F} {tX : ι → Option XR}
    (hA : 10 * ε ≤ A) (hL : Real.log 2 ≤ L) (h : TabClose val A L b k tF tX) (c : ι) (hb : 0 ≤ b c) {t : F} {y : XR} (ht : Within (A * b c) (val t) y) (hy : absVal y ≤ L * b c)
    (hr : (L + A) * (b c + k c) ≤ B) : TabClose val A L b (fun n => k n + if n = c then 1 else 0) (accOne tF c t) (accOne tX c y) := by
  have hε := hR.eps_nonneg
  have hA0 : 0 ≤ A := by linarith
  have hL0 : 0 ≤ L := le_trans (Real.log_nonneg (by norm_num)) hL
  have hk : (0 : ℝ) ≤ k c := Nat.cast_nonneg _
  intro n
  by_cases hn : n = c
  · subst hn
    have hn := h n
    simp only [accOne, Function.update_self, if_true, Nat.cast_add, Nat.cast_one]
    have m1 : A * b n ≤ A * (b n + k n) := mul_le_mul_of_nonneg_left (by linarith) hA0
    have m2 : L * b n ≤ L * (b n + k n) := mul_le_mul_of_nonneg_left (by linarith) hL0
    revert hn
    cases tF n <;> cases tX n <;> intro hn
    · refine ⟨ht.mono ?_, le_trans hy ?_⟩ <;> nlinarith
    · exact absurd hn id
    · exact absurd hn id
    · obtain ⟨h1, h2⟩ := hn
      have h3 := ht.mono m1
      have e0 : 0 ≤ A * (b n + k n) := mul_nonneg hA0 (by linarith)
      refine ⟨(pair_close hR hP h8 hB e0 h1 h3 (by nlinarith) (by nlinarith)).mono (by nlinarith), ?_⟩
      have := pair_absVal h1.isLogProb.2 h3.isLogProb.2 (mul_nonneg hL0 (by linarith)) h2 (le_trans hy m2)
      nlinarith
  · have := h n
    simpa only [accOne, Function.update_of_ne hn, hn, if_false, Nat.add_zero] using this

theorem tabClose_fold (hR : RoundsOn val B ε) (hP : PairFloat val) (h8 : 8 * ε ≤ 1) (hB : 3 ≤ B) {A L : ℝ} {b : ι → ℝ} {D : ι → ℕ} (hA : 10 * ε ≤ A) (hL : Real.log 2 ≤ L)
    (f : (ι → Option F) → ι × ℕ → Option (ι → Option F)) (g : (ι → Option XR) → ι × ℕ → Option (ι → Option XR)) : ∀ (l : List (ι × ℕ)) (k : ι → ℕ) (tF : ι → Option F) (tX : ι → Option XR),
    (∀ ci ∈ l, ∃ t y, (∀ tab, f tab ci = some (accOne tab ci.1 t)) ∧ (∀ tab, g tab ci = some (accOne tab ci.1 y)) ∧ Within (A * b ci.1) (val t) y ∧ absVal y ≤ L * b ci.1 ∧
      0 ≤ b ci.1 ∧ (L + A) * (b ci.1 + D ci.1) ≤ B) →
    (∀ c, k c + (l.map Prod.fst).count c ≤ D c) → TabClose val A L b k tF tX →
    ∃ tF' tX', l.foldlM f tF = some tF' ∧ l.foldlM g tX = some tX' ∧ TabClose val A L b (fun c => k c + (l.map Prod.fst).count c) tF' tX' := by
  have hε := hR.eps_nonneg
  have hA0 : 0 ≤ A := by linarith
  have hL0 : 0 ≤ L := le_trans (Real.log_nonneg (by norm_num)) hL
  intro l
  induction l with
  | nil => intro k tF tX _ _ h; exact ⟨tF, tX, rfl, rfl, by simpa using h⟩
  | cons ci l ih =>
    intro k tF tX hl hk h
    obtain ⟨t, y, h1, h2, h3, h4, h5, h6⟩ := hl ci (by simp)
    have hkc := hk ci.1
    simp only [List.map_cons, List.count_cons_self] at hkc
    have hkc' : (k ci.1 : ℝ) ≤ D ci.1 := by exact_mod_cast (show k ci.1 ≤ D ci.1 by omega)
    have hone := tabClose_one hR hP h8 hB hA hL h ci.1 h5 h3 h4 (le_trans (mul_le_mul_of_nonneg_left (by linarith) (by linarith)) h6)
    have e : ∀ c, k c + (if c = ci.1 then 1 else 0) + (l.map Prod.fst).count c = k c + ((ci :: l).map Prod.fst).count c := by
      intro c
      rw [List.map_cons, List.count_cons]
      by_cases hc : c = ci.1
      · subst hc
        simp
        omega
      · have : ¬ ci.1 = c := fun h => hc h.symm
        simp [hc, this]
    obtain ⟨tF', tX', g1, g2, g3⟩ := ih _ _ _ (fun ci hci => hl ci (by simp [hci])) (fun c => by rw [e c]; exact hk c) hone
    refine ⟨tF', tX', ?_, ?_, ?_⟩
    · rw [List.foldlM_cons, h1]
      exact g1
    · rw [List.foldlM_cons, h2]
      exact g2
    · simp only [e] at g3
      exact g3

/-- A product that starts with a given factor. -/
theorem prod_from (hR : RoundsOn val B ε) {cs : List ι} {g : ι → F} {y : ι → XR} {cost : ι → ℕ} {A L d : ℝ} {pv : F} {y0 : XR} (hA0 : 0 ≤ A) (hL : 0 ≤ L) (hεA : ε ≤ A) (hd : 0 ≤ d)
    (hp : Within (A * d) (val pv) y0) (hpa : absVal y0 ≤ L * d)
    (hgy : ∀ c ∈ cs, Within (A * cost c) (val (g c)) (y c)) (hya : ∀ c ∈ cs, absVal (y c) ≤ L * cost c) {c0 : ℝ} (hc0' : (cs.map fun c => (cost c : ℝ)).sum + cs.length ≤ c0)
    (hB : (L + A) * (d + c0) ≤ B) :
    Within (A * (d + c0)) (val ((cs.map g).foldl GoFloat.add pv)) ((cs.map y).foldl GoFloat.add y0) ∧ absVal ((cs.map y).foldl GoFloat.add y0) ≤ L * (d + c0) := by
  have hε := hR.eps_nonneg
  have hsumA : (cs.map fun c => A * (cost c : ℝ)).sum = A * (cs.map fun c => (cost c : ℝ)).sum := List.sum_map_mul_left ..
  have hsumL : ((cs.map y).map absVal).sum ≤ L * (cs.map fun c => (cost c : ℝ)).sum := by
    rw [← List.sum_map_mul_left, List.map_map]
    exact List.sum_le_sum fun c hc => hya c hc
  have hlen0 : (0 : ℝ) ≤ cs.length := Nat.cast_nonneg _
  have hsum0 : 0 ≤ (cs.map fun c => (cost c : ℝ)).sum := List.sum_nonneg fun x hx => by
    obtain ⟨c, _, rfl⟩ := List.mem_map.1 hx
    positivity
  have hb1 : L * (cs.map fun c => (cost c : ℝ)).sum ≤ L * c0 := mul_le_mul_of_nonneg_left (by linarith) hL
  have hb2 : A * ((cs.map fun c => (cost c : ℝ)).sum + cs.length) ≤ A * c0 := mul_le_mul_of_nonneg_left hc0' hA0
  have hb3 : (cs.length : ℝ) * ε ≤ A * cs.length := by nlinarith
  have hLd : 0 ≤ L * d := mul_nonneg hL hd
  have hAd : 0 ≤ A * d := mul_nonneg hA0 hd
  rw [mul_add] at hb2
  have hBe : (L + A) * (d + c0) = L * d + L * c0 + A * d + A * c0 := by ring
  rw [hBe] at hB
  refine ⟨?_, ?_⟩
  · have := prod_close hR (cs.map g) (cs.map y) (cs.map fun c => A * (cost c : ℝ)) pv y0 (A * d) (L * d) hp hpa
      (by simp) (by simp)
      (fun i v z e h1 h2 h3 => by
        simp only [List.getElem?_map, Option.map_eq_some_iff] at h1 h2 h3
        obtain ⟨c, hc, rfl⟩ := h1
        obtain ⟨c', hc', rfl⟩ := h2
        obtain ⟨c'', hc'', rfl⟩ := h3
        rw [hc] at hc' hc''
        cases hc'
        cases hc''
        exact ⟨hgy c (List.mem_of_getElem? hc), by positivity⟩)
      (by
        rw [hsumA, List.length_map]
        linarith) hAd hLd
    rw [hsumA, List.length_map] at this
    refine Within.mono this ?_
    rw [mul_add]
    linarith
  · have := prod_absVal (cs.map y) y0 hp.isLogProb.2 (fun z hz => by
      obtain ⟨c, hc, rfl⟩ := List.mem_map.1 hz
      exact (hgy c hc).isLogProb.2)
    refine le_trans this ?_
    rw [mul_add]
    linarith

theorem cast_sum_succ (cost : ι → ℕ) (l : List ι) : (((l.map fun c => cost c + 1).sum : ℕ) : ℝ) = (l.map fun c => (cost c : ℝ)).sum + l.length := by
  induction l with
  | nil => simp
  | cons a l ih =>
    simp only [List.map_cons, List.sum_cons, List.length_cons]
    push_cast at ih ⊢
    rw [ih]
    ring

theorem sum_eraseIdx (f : ι → ℕ) : ∀ (l : List ι) (i : ℕ) (c : ι), l[i]? = some c → ((l.eraseIdx i).map f).sum + f c = (l.map f).sum := by
  intro l
  induction l with
  | nil => intro i c h; simp at h
  | cons a l ih =>
    intro i c h
    cases i with
    | zero =>
      simp at h
      subst h
      simp [add_comm]
    | succ i =>
      have := ih i c (by simpa using h)
      simp only [List.eraseIdx_cons_succ, List.map_cons, List.sum_cons]
      omega

/-- One node of the loop of `DeriveSPN`. -/
theorem tabClose_step (hR : RoundsOn val B ε) (hP : PairFloat val) (h8 : 8 * ε ≤ 1) (hB : 3 ≤ B) {N : Net ι F} {M : Net ι XR} {S : ι} {K : ℕ} {A L H : ℝ} {cost grad : ι → ℕ}
    {P : Leaf F → Leaf XR → Prop} (hK : 1 ≤ K) (hA : 10 * ε ≤ A) (hL : Real.log 2 ≤ L) (hs : StoresNet val N S K L ε P M) (hcost : Cost N S cost) (hgrad : GradCost N S cost grad)
    (hb : ∀ n, Reach N.ch S n → cost n + inDegree N S n ≤ grad n) (hH : ∀ n, Reach N.ch S n → (grad n : ℝ) ≤ H) (hLH : (L + A) * H ≤ B) (hLB : L + 2 * ε ≤ B)
    {infF : ι → F} {infX : ι → XR} (hinf : ∀ n, Reach N.ch S n → Within (A * cost n) (val (infF n)) (infX n) ∧ absVal (infX n) ≤ L * cost n) {k : ι → ℕ} {tF : ι → Option F} {tX : ι → Option XR}
    (s : ι) (hsr : Reach N.ch S s) (hk : ∀ c, k c + (N.ch s).count c ≤ inDegree N S c)
    (h : TabClose val A L (fun n => (grad n : ℝ) - cost n - inDegree N S n) k tF tX) :
    ∃ tF' tX', N.accKind infF tF s = some tF' ∧ M.accKind infX tX s = some tX' ∧
      TabClose val A L (fun n => (grad n : ℝ) - cost n - inDegree N S n) (fun c => k c + (N.ch s).count c) tF' tX' := by
  have hε := hR.eps_nonneg
  have hA0 : 0 ≤ A := by linarith
  have hL0 : 0 ≤ L := le_trans (Real.log_nonneg (by norm_num)) hL
  have hlK : 0 ≤ Real.log K := Real.log_nonneg (by exact_mod_cast hK)
  have hbr : ∀ n, Reach N.ch S n → 0 ≤ (grad n : ℝ) - cost n - inDegree N S n := by
    intro n hn
    have : ((cost n + inDegree N S n : ℕ) : ℝ) ≤ grad n := by exact_mod_cast hb n hn
    push_cast at this
    linarith
  have hgH : ∀ n, Reach N.ch S n → (L + A) * ((grad n : ℝ) - cost n - inDegree N S n + inDegree N S n) ≤ B := by
    intro n hn
    refine le_trans (mul_le_mul_of_nonneg_left ?_ (by linarith)) hLH
    have := hH n hn
    have h0 : (0 : ℝ) ≤ cost n := Nat.cast_nonneg _
    linarith
  -- the derivative of `s` so far
  obtain ⟨d, hd0, hdle, hpv, hpva⟩ : ∃ d : ℝ, 0 ≤ d ∧ d ≤ grad s - cost s ∧ Within (A * d) (val ((tF s).getD (GoFloat.ofInt 0))) ((tX s).getD (GoFloat.ofInt 0)) ∧
      absVal ((tX s).getD (GoFloat.ofInt 0)) ≤ L * d := by
    have hks : (k s : ℝ) ≤ inDegree N S s := by exact_mod_cast (show k s ≤ inDegree N S s by have := hk s; omega)
    have hb0 := hbr s hsr
    have hk0 : (0 : ℝ) ≤ k s := Nat.cast_nonneg _
    refine ⟨(grad s : ℝ) - cost s - inDegree N S s + k s, by linarith, by linarith, ?_⟩
    have h0 : (GoFloat.ofInt 0 : XR) = .fin 0 := by simp
    have hss := h s
    revert hss
    cases tF s <;> cases tX s <;> intro hss
    · simp only [Option.getD_none, hR.zero, h0]
      refine ⟨?_, ?_⟩
      · show |(0 : ℝ) - 0| ≤ _
        rw [sub_self, abs_zero]
        exact mul_nonneg hA0 (by linarith)
      · show |(0 : ℝ)| ≤ _
        rw [abs_zero]
        exact mul_nonneg hL0 (by linarith)
    · exact absurd hss id
    · exact absurd hss id
    · exact hss
  have hdB : (L + A) * d ≤ B := by
    refine le_trans (mul_le_mul_of_nonneg_left ?_ (by linarith)) hLH
    have := hH s hsr
    have h0 : (0 : ℝ) ≤ cost s := Nat.cast_nonneg _
    linarith
  have hedge : ∀ c ∈ N.ch s, Reach N.ch S c ∧ (grad s : ℝ) - cost c ≤ (grad c : ℝ) - cost c - inDegree N S c := by
    intro c hc
    refine ⟨hsr.tail hc, ?_⟩
    have : ((grad s + inDegree N S c : ℕ) : ℝ) ≤ grad c := by exact_mod_cast hgrad.2 s hsr c hc
    push_cast at this
    linarith
  have hnode := hs.2 s hsr
  have hcs := hcost s hsr
  unfold Net.accKind
  revert hnode
  cases hkN : N.kind s with
  | leaf l =>
    cases hkM : M.kind s with
    | leaf m =>
      intro _
      refine ⟨tF, tX, rfl, rfl, ?_⟩
      have : N.ch s = [] := by simp [Net.ch, hkN]
      rw [this]
      simpa using h
    | sum ds q => exact fun h => absurd h id
    | product ds => exact fun h => absurd h id
  | sum ch w =>
    have hch : N.ch s = ch := by simp [Net.ch, hkN]
    cases hkM : M.kind s with
    | leaf m => exact fun h => absurd h id
    | product ds => exact fun h => absurd h id
    | sum ds q =>
      rintro ⟨rfl, hne, hlK', hlw, hwq⟩
      rw [hkN] at hcs
      simp only at hcs
      have hcount : ∀ c, (N.ch s).count c = (ch.zipIdx.map Prod.fst).count c := by intro c; rw [hch]; simp
      simp only [hcount] at hk ⊢
      refine tabClose_fold hR hP h8 hB hA hL _ _ ch.zipIdx k tF tX ?_ hk h
      rintro ⟨c, i⟩ hci
      have hi := mem_zipIdx0 hci
      have hc : c ∈ ch := List.mem_of_getElem? hi
      have hil : i < ch.length := (List.getElem?_eq_some_iff.1 hi).1
      obtain ⟨hcr, hce⟩ := hedge c (by rw [hch]; exact hc)
      have hiw : i < w.length := by omega
      have hiq : i < q.length := by rw [← hwq.length_eq]; exact hiw
      have hst := hwq.get hiw hiq
      have hc1 : (cost c : ℝ) + 1 ≤ cost s := by exact_mod_cast hcs c hc
      have hd1 : d + 1 ≤ (grad c : ℝ) - cost c - inDegree N S c := by linarith
      refine ⟨GoFloat.add (GoFloat.log w[i]) ((tF s).getD (GoFloat.ofInt 0)), GoFloat.add (GoFloat.log q[i]) ((tX s).getD (GoFloat.ofInt 0)), ?_, ?_, ?_, ?_, hbr c hcr, hgH c hcr⟩
      · intro tab
        simp only [List.getElem?_eq_getElem hiw, Option.bind_some]
      · intro tab
        simp only [List.getElem?_eq_getElem hiq, Option.bind_some]
      · have hone := weightedMax_one hR hpv (show Stores val (L - Real.log K) ε w[i] q[i] from hst) (by linarith) (by nlinarith)
        refine Within.mono hone ?_
        have := mul_le_mul_of_nonneg_left hd1 hA0
        show _ ≤ A * ((grad c : ℝ) - cost c - inDegree N S c)
        nlinarith
      · have h2 : Stores val (L - Real.log K) ε w[i] q[i] := hst
        obtain ⟨r, x, _, hx, _, hx0, _, hx2⟩ := h2
        have hm := mul_le_mul_of_nonneg_left hd1 hL0
        have hm0 : 0 ≤ L * ((grad c : ℝ) - cost c - inDegree N S c) := mul_nonneg hL0 (hbr c hcr)
        show absVal (XR.add (XR.log q[i]) _) ≤ L * ((grad c : ℝ) - cost c - inDegree N S c)
        rw [hx]
        by_cases hxz : x = 0
        · subst hxz
          rw [XR.log_zero]
          rcases IsLogProb.cases hpv.isLogProb.2 with e | ⟨z, e⟩ <;> rw [e] <;> exact hm0
        · rw [XR.log_pos (lt_of_le_of_ne hx0 (Ne.symm hxz))]
          have hlx := (hx2 hxz).1
          rcases IsLogProb.cases hpv.isLogProb.2 with e | ⟨z, e⟩
          · rw [e]
            exact hm0
          · rw [e] at hpva ⊢
            simp only [absVal] at hpva
            show |Real.log x + z| ≤ _
            have := abs_add_le (Real.log x) z
            nlinarith
  | product ch =>
    have hch : N.ch s = ch := by simp [Net.ch, hkN]
    cases hkM : M.kind s with
    | leaf m => exact fun h => absurd h id
    | sum ds q => exact fun h => absurd h id
    | product ds =>
      intro hcd
      have hcd : ch = ds := hcd
      subst hcd
      rw [hkN] at hcs
      simp only at hcs
      have hcount : ∀ c, (N.ch s).count c = (ch.zipIdx.map Prod.fst).count c := by intro c; rw [hch]; simp
      simp only [hcount] at hk ⊢
      refine tabClose_fold hR hP h8 hB hA hL _ _ ch.zipIdx k tF tX ?_ hk h
      rintro ⟨c, i⟩ hci
      have hi := mem_zipIdx0 hci
      have hc : c ∈ ch := List.mem_of_getElem? hi
      obtain ⟨hcr, hce⟩ := hedge c (by rw [hch]; exact hc)
      have hsum : ((((ch.eraseIdx i).map fun c => cost c + 1).sum : ℕ) : ℝ) + (cost c + 1) ≤ cost s := by
        have h1 := sum_eraseIdx (fun c => cost c + 1) ch i c hi
        have h2 : ((ch.eraseIdx i).map fun c => cost c + 1).sum + (cost c + 1) ≤ cost s := by
          rw [h1]
          exact hcs
        exact_mod_cast h2
      rw [cast_sum_succ] at hsum
      have hsub : ∀ c' ∈ ch.eraseIdx i, Reach N.ch S c' := fun c' hc' => hsr.tail (by rw [hch]; exact List.mem_of_mem_eraseIdx hc')
      have hd1 : d + (((ch.eraseIdx i).map fun c => (cost c : ℝ)).sum + (ch.eraseIdx i).length) ≤ (grad c : ℝ) - cost c - inDegree N S c := by linarith
      obtain ⟨p1, p2⟩ := prod_from hR hA0 hL0 (by linarith) hd0 hpv hpva (cs := ch.eraseIdx i) (g := infF) (y := infX) (cost := cost) (fun c' hc' => (hinf c' (hsub c' hc')).1)
        (fun c' hc' => (hinf c' (hsub c' hc')).2) le_rfl (by
          refine le_trans (mul_le_mul_of_nonneg_left ?_ (by linarith)) hLH
          have := hH c hcr
          have h0 : (0 : ℝ) ≤ cost c := Nat.cast_nonneg _
          have h1 : (0 : ℝ) ≤ inDegree N S c := Nat.cast_nonneg _
          linarith)
      exact ⟨_, _, fun tab => rfl, fun tab => rfl, p1.mono (mul_le_mul_of_nonneg_left hd1 hA0), le_trans p2 (mul_le_mul_of_nonneg_left hd1 hL0), hbr c hcr, hgH c hcr⟩

/-- The loop of `DeriveSPN`. -/
theorem tabClose_run (hR : RoundsOn val B ε) (hP : PairFloat val) (h8 : 8 * ε ≤ 1) (hB : 3 ≤ B) {N : Net ι F} {M : Net ι XR} {S : ι} {K : ℕ} {A L H : ℝ} {cost grad : ι → ℕ}
    {P : Leaf F → Leaf XR → Prop} (hK : 1 ≤ K) (hA : 10 * ε ≤ A) (hL : Real.log 2 ≤ L) (hs : StoresNet val N S K L ε P M) (hcost : Cost N S cost) (hgrad : GradCost N S cost grad)
    (hb : ∀ n, Reach N.ch S n → cost n + inDegree N S n ≤ grad n) (hH : ∀ n, Reach N.ch S n → (grad n : ℝ) ≤ H) (hLH : (L + A) * H ≤ B) (hLB : L + 2 * ε ≤ B)
    {infF : ι → F} {infX : ι → XR} (hinf : ∀ n, Reach N.ch S n → Within (A * cost n) (val (infF n)) (infX n) ∧ absVal (infX n) ≤ L * cost n) :
    ∀ (todo : List ι) (k : ι → ℕ) (tF : ι → Option F) (tX : ι → Option XR), (∀ s ∈ todo, Reach N.ch S s) → (∀ c, k c + (todo.map fun m => (N.ch m).count c).sum ≤ inDegree N S c) →
      TabClose val A L (fun n => (grad n : ℝ) - cost n - inDegree N S n) k tF tX →
      ∃ tF' tX', todo.foldlM (N.accKind infF) tF = some tF' ∧ todo.foldlM (M.accKind infX) tX = some tX' ∧
        TabClose val A L (fun n => (grad n : ℝ) - cost n - inDegree N S n) (fun c => k c + (todo.map fun m => (N.ch m).count c).sum) tF' tX' := by
  intro todo
  induction todo with
  | nil => intro k tF tX _ _ h; exact ⟨tF, tX, rfl, rfl, by simpa using h⟩
  | cons s todo ih =>
    intro k tF tX hr hk h
    simp only [List.map_cons, List.sum_cons] at hk
    obtain ⟨t1, x1, h1, h2, h3⟩ := tabClose_step hR hP h8 hB hK hA hL hs hcost hgrad hb hH hLH hLB hinf s (hr s (by simp)) (fun c => by have := hk c; omega) h
    obtain ⟨t2, x2, g1, g2, g3⟩ := ih _ t1 x1 (fun s hs => hr s (by simp [hs])) (fun c => by have := hk c; beta_reduce; omega) h3
    refine ⟨t2, x2, ?_, ?_, ?_⟩
    · rw [List.foldlM_cons, h1]
      exact g1
    · rw [List.foldlM_cons, h2]
      exact g2
    · simpa only [List.map_cons, List.sum_cons, Nat.add_assoc] using g3

theorem inDegree_list (N : Net ι F) (S : ι) {l : List ι} (hn : l.Nodup) (hr : ∀ s ∈ l, Reach N.ch S s) (c : ι) : (l.map fun m => (N.ch m).count c).sum ≤ inDegree N S c := by
  classical
  rw [← List.sum_toFinset _ hn]
  unfold inDegree
  refine Finset.sum_le_sum_of_subset ?_
  intro m hm
  simpa using hr m (by simpa using hm)

theorem inDegree_root {N : Net ι F} (hac : Acyclic N.ch) (S : ι) : inDegree N S S = 0 := by
  classical
  obtain ⟨rank, hrank⟩ := hac
  have hle : ∀ m, Reach N.ch S m → rank m ≤ rank S := by
    intro m hm
    induction hm with
    | refl => exact le_rfl
    | tail _ hc ih =>
      have := hrank _ _ hc
      omega
  unfold inDegree
  refine Finset.sum_eq_zero fun m hm => ?_
  rw [List.count_eq_zero]
  intro hc
  have h1 := hrank m S hc
  have h2 := hle m (by simpa using hm)
  omega

theorem gradCost_le {N : Net ι F} (hac : Acyclic N.ch) {S : ι} {cost grad : ι → ℕ} (hcost : Cost N S cost) (hgrad : GradCost N S cost grad) :
    ∀ n, Reach N.ch S n → cost n + inDegree N S n ≤ grad n := by
  intro n hn
  induction hn with
  | refl => rw [inDegree_root hac]; exact hgrad.1
  | @tail a c ha hc ih =>
    have h1 := hgrad.2 a ha c hc
    have h2 : Cost N a cost := fun n hn => hcost n (ha.trans hn)
    have h3 := h2.le (n := c) (Relation.ReflTransGen.refl.tail hc)
    omega

/-- The order of the search depends only on the nodes it reaches. -/
theorem workOrder_congr {cand cand' : ι → List ι} (P : ι → Prop) (h : ∀ x, P x → cand x = cand' x ∧ ∀ c ∈ cand x, P c) (isStack : Bool) (G : ι) (hG : P G) :
    workOrder cand isStack G = workOrder cand' isStack G := by
  have key : ∀ (fuel : ℕ) (C : Coll ι) (V : Finset ι), C.items.Nodup → (∀ x ∈ C.items, x ∈ V) → (∀ x ∈ C.items, P x) → ordLoop cand fuel C V = ordLoop cand' fuel C V := by
    intro fuel
    induction fuel with
    | zero => intros; rfl
    | succ fuel ih =>
      intro C V hn hV hC
      rw [ordLoop, ordLoop]
      cases hi : C.items with
      | nil => rfl
      | cons s rest =>
        rw [hi] at hn hV hC
        obtain ⟨h1, h2⟩ := h s (hC s (by simp))
        simp only
        rw [← h1]
        obtain ⟨g1, g2, g3, _⟩ := giveNew_spec (cand s) { C with items := rest } V (List.nodup_cons.1 hn).2 (fun x hx => hV x (by simp [hx]))
        rw [ih]
        · exact g1
        · intro x hx
          rw [g2]
          rcases (g3 x).1 hx with hx | ⟨hx, _⟩
          · exact Finset.mem_union_left _ (hV x (by simp [show x ∈ rest from hx]))
          · exact Finset.mem_union_right _ (by simpa using hx)
        · intro x hx
          rcases (g3 x).1 hx with hx | ⟨hx, _⟩
          · exact hC x (by simp [show x ∈ rest from hx])
          · exact h2 x hx
  exact key _ _ _ (by simp) (by simp) (by simpa using hG)

/-- A storage whose ticket 0 holds given values. -/
def givenStore (x : ι → F) : Storer ι F :=
  ⟨fun a n => if a = 0 then some (fun i => if i = 0 then some (x n) else none) else none, 1, fun k => if k = 0 then some 0 else none, 1⟩

omit [DecidableEq ι] [Fintype ι] [GoFloat F] in
theorem givenStore_wf (x : ι → F) : (givenStore x).WF := by
  refine ⟨?_, ?_, ?_⟩
  · intro k a h
    simp only [givenStore] at h ⊢
    split at h <;> simp at h
    omega
  · intro k k' a h h'
    simp only [givenStore] at h h'
    split at h <;> split at h' <;> simp_all
  · intro a S v h
    simp only [givenStore] at h
    split at h <;> simp at h
    subst h
    exact ⟨0, by simp⟩

omit [DecidableEq ι] [Fintype ι] [GoFloat F] in
theorem givenStore_entry (x : ι → F) (n : ι) : (givenStore x).entry 0 n 0 = some (x n) := by
  simp [givenStore, Storer.entry, Table.entry]

end Sim
end Gospn
