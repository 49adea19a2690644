import Verif.Proofs.Rounding
import Verif.Proofs.MapArg
import Verif.Proofs.ArgMax
/-
Error analysis of `Max` and `ArgMax`.
-/
set_option linter.unusedSectionVars false
set_option linter.unusedSimpArgs false

namespace Gospn
open Spec
variable {ι F : Type} [GoFloat F] {val : F → XR} {B ε : ℝ}

/-- One weighted value of `Max`. -/
theorem weightedMax_one (hR : RoundsOn val B ε) {v w : F} {y q : XR} {e L δ : ℝ} (hv : Within e (val v) y) (hw : Stores val L δ w q)
    (hl : L + δ + ε ≤ B) (hB : absVal y + e ≤ B) : Within (e + δ + 2 * ε) (val (GoFloat.add (GoFloat.log w) v)) (XR.add (XR.log q) y) := by
  have hε := hR.eps_nonneg
  obtain ⟨r, s, hw, rfl, hr, hs, hrs, hsl⟩ := hw
  by_cases hx0 : s = 0
  · have hr0 : r = 0 := hrs.2 hx0
    subst hx0 hr0
    rw [hR.add_left (GoFloat.log w) v (hR.log_zero w hw) hv.isLogProb.1, XR.log_zero]
    rcases hv.cases with ⟨_, rfl⟩ | ⟨a, b, _, rfl, _⟩ <;> trivial
  · have hsp : 0 < s := lt_of_le_of_ne hs (Ne.symm hx0)
    have hrp : 0 < r := lt_of_le_of_ne hr fun h => hx0 (hrs.1 h.symm)
    obtain ⟨hl1, hl2⟩ := hsl hx0
    have hlr := abs_sub_abs_le_abs_sub (Real.log r) (Real.log s)
    obtain ⟨z, hz, hze⟩ := hR.log w r hw hrp (by linarith)
    rw [XR.log_pos hsp]
    rcases hv.cases with ⟨hv', rfl⟩ | ⟨a, b, hv', rfl, hab⟩
    · rw [hR.add_right (GoFloat.log w) v (by rw [hz]; trivial) hv']
      trivial
    · simp only [absVal] at hB
      have ha : |a| ≤ B := by
        have := abs_sub_abs_le_abs_sub a b
        linarith
      have hzB : |z| ≤ B := by
        have := abs_sub_abs_le_abs_sub z (Real.log r)
        linarith
      obtain ⟨t, ht, hte⟩ := hR.add (GoFloat.log w) v z a hz hv' hzB ha
      rw [ht]
      show |t - (Real.log s + b)| ≤ e + δ + 2 * ε
      have : t - (Real.log s + b) = (t - (z + a)) + (a - b) + (z - Real.log r) + (Real.log r - Real.log s) := by ring
      rw [this]
      have h0 := abs_add_le ((t - (z + a)) + (a - b) + (z - Real.log r)) (Real.log r - Real.log s)
      have h1 := abs_add_le ((t - (z + a)) + (a - b)) (z - Real.log r)
      have h2 := abs_add_le (t - (z + a)) (a - b)
      linarith

theorem weightedMax_close (hR : RoundsOn val B ε) {e L δ : ℝ} : ∀ (vs : List F) (ys : List XR) (w : List F) (q : List XR), List.Forall₂ (fun v y => Within e (val v) y) vs ys →
    vs.length ≤ w.length → List.Forall₂ (Stores val L δ) w q → L + δ + ε ≤ B → (∀ y ∈ ys, absVal y + e ≤ B) →
    ∃ us zs, weightedMax vs w = some us ∧ weightedMax ys q = some zs ∧ List.Forall₂ (fun v y => Within (e + δ + 2 * ε) (val v) y) us zs := by
  intro vs
  induction vs with
  | nil =>
    intro ys w q h _ _ _ _
    cases h
    exact ⟨[], [], rfl, rfl, .nil⟩
  | cons v vs ih =>
    intro ys w q h hlen hw hL hy
    cases h with
    | @cons _ y _ ys hv h =>
      cases hw with
      | nil => simp at hlen
      | @cons w0 q0 w q hw0 hw =>
        obtain ⟨us, zs, h1, h2, h3⟩ := ih ys w q h (by simpa using hlen) hw hL (fun x hx => hy x (by simp [hx]))
        exact ⟨GoFloat.add (GoFloat.log w0) v :: us, XR.add (XR.log q0) y :: zs, by simp [weightedMax, h1], by simp [weightedMax, h2],
          .cons (weightedMax_one hR hv hw0 hL (hy y (by simp))) h3⟩

theorem weightedMax_absVal {L m δ : ℝ} (hL : 0 ≤ L) (hm : 0 ≤ m) : ∀ (ys : List XR) (w : List F) (q zs : List XR), weightedMax ys q = some zs → (∀ y ∈ ys, IsLogProb y ∧ absVal y ≤ m) →
    List.Forall₂ (Stores val L δ) w q → ∀ z ∈ zs, IsLogProb z ∧ absVal z ≤ m + L := by
  intro ys
  induction ys with
  | nil =>
    intro w q zs h _ _ z hz
    simp only [weightedMax, Option.some.injEq] at h
    subst h
    simp at hz
  | cons y ys ih =>
    intro w q zs h hy hw z hz
    cases hw with
    | nil => simp [weightedMax] at h
    | @cons x p w q hx hw =>
      simp only [weightedMax, Option.map_eq_some_iff] at h
      obtain ⟨zs', h', rfl⟩ := h
      rcases List.mem_cons.1 hz with rfl | hz
      · obtain ⟨_, s, _, rfl, _, hs, _, hsL⟩ := hx
        obtain ⟨hy1, hy2⟩ := hy y (by simp)
        simp only [XR.g_add, XR.g_log]
        by_cases h0 : s = 0
        · subst h0
          rw [XR.log_zero]
          rcases IsLogProb.cases hy1 with rfl | ⟨a, rfl⟩
          · exact ⟨trivial, by simp [absVal]; linarith⟩
          · exact ⟨trivial, by simp [absVal]; linarith⟩
        · rw [XR.log_pos (lt_of_le_of_ne hs (Ne.symm h0))]
          rcases IsLogProb.cases hy1 with rfl | ⟨a, rfl⟩
          · exact ⟨trivial, by simp [absVal]; linarith⟩
          · refine ⟨trivial, ?_⟩
            simp only [XR.add_fin, absVal] at hy2 ⊢
            have := abs_add_le (Real.log s) a
            have := (hsL h0).1
            linarith
      · exact ih w q zs' h' (fun y' h => hy y' (by simp [h])) hw z hz

theorem forall₂_mem_left {α β : Type} {R : α → β → Prop} {l : List α} {m : List β} (h : List.Forall₂ R l m) {a : α} (ha : a ∈ l) : ∃ b ∈ m, R a b := by
  induction h with
  | nil => simp at ha
  | cons h _ ih =>
    rcases List.mem_cons.1 ha with rfl | ha
    · exact ⟨_, by simp, h⟩
    · obtain ⟨b, hb, hab⟩ := ih ha
      exact ⟨b, by simp [hb], hab⟩

/-- The maximum moves no more than its arguments. -/
theorem max_lipschitz {e : ℝ} {xs ys : List XR} (h : List.Forall₂ (Within e) xs ys) : Within e (maxCompute xs) (maxCompute ys) := by
  have hx : ∀ v ∈ xs, IsLogProb v := fun v hv => by
    obtain ⟨_, _, h'⟩ := forall₂_mem_left h hv
    exact h'.isLogProb.1
  have hy : ∀ v ∈ ys, IsLogProb v := fun v hv => by
    obtain ⟨_, _, h'⟩ := forall₂_mem_left h.flip hv
    exact (Within.isLogProb h').2
  obtain ⟨a1, a2, _, a4⟩ := foldl_max_spec xs .ninf trivial hx
  obtain ⟨b1, b2, _, b4⟩ := foldl_max_spec ys .ninf trivial hy
  unfold maxCompute
  simp only [XR.g_lt, XR.g_ninf]
  have hexp := (Real.exp_pos e).le
  refine close_of_unlog a1 b1 ?_ ?_
  · rcases a2 with a2 | a2
    · rw [a2]
      exact mul_nonneg hexp (unlog_nonneg _)
    · obtain ⟨y, hy1, hy2⟩ := forall₂_mem_left h a2
      exact le_trans (close_unlog hy2).1 (mul_le_mul_of_nonneg_left (b4 y hy1) hexp)
  · rcases b2 with b2 | b2
    · rw [b2]
      exact mul_nonneg hexp (unlog_nonneg _)
    · obtain ⟨x, hx1, hx2⟩ := forall₂_mem_left h.flip b2
      exact le_trans (close_unlog hx2).2 (mul_le_mul_of_nonneg_left (a4 x hx1) hexp)

theorem max_close_list (hR : RoundsOn val B ε) {e : ℝ} {us : List F} {zs : List XR} (h : List.Forall₂ (fun v y => Within e (val v) y) us zs) :
    Within e (val (maxCompute us)) (maxCompute zs) := by
  have h1 : val (maxCompute us) = maxCompute (us.map val) := by
    unfold maxCompute
    rw [val_foldl_max hR, hR.ninf]
    rfl
  rw [h1]
  refine max_lipschitz ?_
  rw [List.forall₂_map_left_iff]
  exact h

theorem maxCompute_absVal {zs : List XR} {m : ℝ} (hm : 0 ≤ m) (hz : ∀ z ∈ zs, IsLogProb z ∧ absVal z ≤ m) : absVal (maxCompute zs) ≤ m := by
  obtain ⟨_, a2, _, _⟩ := foldl_max_spec zs .ninf trivial fun z h => (hz z h).1
  unfold maxCompute
  simp only [XR.g_lt, XR.g_ninf]
  rcases a2 with a2 | a2
  · rw [a2]
    exact hm
  · exact (hz _ a2).2

/-- The computed MAP value of every node is close to the exact one. -/
theorem max_close [Fintype ι] {N : Net ι F} {M : Net ι XR} {S : ι} {I : VarSet} {K : ℕ} {L : ℝ} {cost : ι → ℕ} (hac : Acyclic N.ch)
    (hR : RoundsOn val (L * (cost S + 1) + 4) ε) (hL : 0 ≤ L) (hLK : Real.log K ≤ L) (hK : 1 ≤ K) (hs : StoresNet val N S K L ε (MaxWithin val I L (2 * ε)) M) (hcost : Cost N S cost)
    (hsmall : 3 * ε * cost S ≤ 1) (hcS : 1 ≤ cost S) :
    ∀ n, Reach N.ch S n → ∃ v y, N.max I n = some v ∧ M.max I n = some y ∧ Within (3 * ε * cost n) (val v) y ∧ absVal y ≤ L * cost n := by
  have hε := hR.eps_nonneg
  have hac' : Acyclic M.ch := by rw [funext hs.1]; exact hac
  have hK1 : (1 : ℝ) ≤ K := by exact_mod_cast hK
  have hlK := Real.log_nonneg hK1
  have hcS1 : (1 : ℝ) ≤ cost S := by exact_mod_cast hcS
  set A := 3 * ε with hA
  have hA0 : 0 ≤ A := by positivity
  have hA1 : A ≤ 1 := by nlinarith
  obtain ⟨rank, hr⟩ := id hac
  intro n
  induction hn : rank n using Nat.strong_induction_on generalizing n with
  | _ k ih =>
    intro hreach
    have ihc : ∀ c ∈ N.ch n, ∃ v y, N.max I c = some v ∧ M.max I c = some y ∧ Within (A * cost c) (val v) y ∧ absVal y ≤ L * cost c := fun c hc =>
      ih (rank c) (by rw [← hn]; exact hr n c hc) c rfl (Relation.ReflTransGen.tail hreach hc)
    have : Nonempty F := ⟨GoFloat.ofInt 0⟩
    have : Nonempty XR := ⟨.ninf⟩
    choose! g y hg hy hgy hya using ihc
    have hcn : (cost n : ℝ) ≤ cost S := by exact_mod_cast hcost.le hreach
    have hAn : A * cost n ≤ 1 := le_trans (mul_le_mul_of_nonneg_left hcn hA0) hsmall
    have hLn : L * cost n ≤ L * cost S := mul_le_mul_of_nonneg_left hcn hL
    have hLS : 0 ≤ L * cost S := by positivity
    have hc0 := hcost n hreach
    rw [Net.max_unfold hac, Net.max_unfold hac']
    unfold Net.maxStep
    have hn2 := hs.2 n hreach
    cases hk : N.kind n with
    | leaf l =>
      cases hm : M.kind n with
      | sum ds q => rw [hk, hm] at hn2; exact absurd hn2 id
      | product ds => rw [hk, hm] at hn2; exact absurd hn2 id
      | leaf m =>
      simp only [hk] at hc0 ⊢
      have hc1 : (1 : ℝ) ≤ cost n := by exact_mod_cast hc0
      rw [hk, hm] at hn2
      obtain ⟨v, z, h1, h2, h3, h4⟩ := hn2
      exact ⟨v, z, h1, h2, h3.mono (by nlinarith), by nlinarith⟩
    | sum cs w =>
      cases hm : M.kind n with
      | leaf ds => rw [hk, hm] at hn2; exact absurd hn2 id
      | product ds => rw [hk, hm] at hn2; exact absurd hn2 id
      | sum ds q =>
      have hch : N.ch n = cs := by simp [Net.ch, hk]
      rw [hch] at hg hy hgy hya
      simp only [hk] at hc0 ⊢
      rw [hk, hm] at hn2
      obtain ⟨rfl, hne, hlenK, hlenw, hw⟩ := hn2
      rw [mapM_eq_some hg, mapM_eq_some hy]
      simp only [Option.bind_some]
      have hcn1 : (1 : ℝ) ≤ cost n := by
        obtain ⟨c, cs', rfl⟩ := List.exists_cons_of_ne_nil hne
        exact_mod_cast le_trans (Nat.le_add_left 1 _) (hc0 c (by simp))
      have hcc : ∀ c ∈ cs, (cost c : ℝ) ≤ cost n - 1 := by
        intro c hc
        have : ((cost c + 1 : ℕ) : ℝ) ≤ cost n := by exact_mod_cast hc0 c hc
        push_cast at this
        linarith
      have hLc : L * (cost n - 1) = L * cost n - L := by ring
      have hAc : A * (cost n - 1) = A * cost n - A := by ring
      have hf : List.Forall₂ (fun v z => Within (A * (cost n - 1)) (val v) z) (cs.map g) (cs.map y) := by
        rw [List.forall₂_map_left_iff, List.forall₂_map_right_iff, List.forall₂_same]
        exact fun c hc => (hgy c hc).mono (mul_le_mul_of_nonneg_left (hcc c hc) hA0)
      have hyB : ∀ z ∈ cs.map y, IsLogProb z ∧ absVal z ≤ L * (cost n - 1) := by
        intro z hz
        obtain ⟨c, hc, rfl⟩ := List.mem_map.1 hz
        exact ⟨(hgy c hc).isLogProb.2, le_trans (hya c hc) (mul_le_mul_of_nonneg_left (hcc c hc) hL)⟩
      obtain ⟨us, zs, hus, hzs, huz⟩ := weightedMax_close hR (cs.map g) (cs.map y) w q hf (by simpa using hlenw) hw (by nlinarith)
        (fun z hz => by
          have := (hyB z hz).2
          linarith)
      have hzB := weightedMax_absVal (L := L - Real.log K) (m := L * (cost n - 1)) (by linarith) (mul_nonneg hL (by linarith)) (cs.map y) w q zs hzs hyB hw
      refine ⟨maxCompute us, maxCompute zs, by rw [hus]; rfl, by rw [hzs]; rfl, (max_close_list hR huz).mono ?_, ?_⟩
      · linarith
      · refine le_trans (maxCompute_absVal ?_ hzB) ?_
        · nlinarith
        · linarith
    | product cs =>
      cases hm : M.kind n with
      | leaf ds => rw [hk, hm] at hn2; exact absurd hn2 id
      | sum ds q => rw [hk, hm] at hn2; exact absurd hn2 id
      | product ds =>
      rw [hk, hm] at hn2
      obtain rfl := hn2
      have hch : N.ch n = cs := by simp [Net.ch, hk]
      rw [hch] at hg hy hgy hya
      simp only [hk] at hc0 ⊢
      rw [mapM_eq_some hg, mapM_eq_some hy]
      simp only [Option.map_some, prodCompute]
      obtain ⟨p1, p2⟩ := prod_node hR (cs := cs) (g := g) (y := y) (cost := cost) (A := A) (L := L) (c0 := cost n) hA0 hL (by linarith) hc0 hgy hya (by nlinarith)
      exact ⟨_, _, rfl, rfl, p1, p2⟩

theorem storesNet_scope {N : Net ι F} {M : Net ι XR} {S : ι} {K : ℕ} {L δ : ℝ} {P : Leaf F → Leaf XR → Prop} (hs : StoresNet val N S K L δ P M)
    (hP : ∀ l m, P l m → leafVar m = leafVar l) {n : ι} (hn : Reach N.ch S n) (v : Int) : InScope M n v ↔ InScope N n v := by
  have hch : M.ch = N.ch := funext hs.1
  constructor
  · rintro ⟨k, m, hk, hm, rfl⟩
    rw [hch] at hk
    have h2 := hs.2 k (Relation.ReflTransGen.trans hn hk)
    rw [hm] at h2
    cases hl : N.kind k with
    | leaf l =>
      rw [hl] at h2
      exact ⟨k, l, hk, hl, (hP l m h2).symm⟩
    | sum cs w => rw [hl] at h2; exact absurd h2 id
    | product cs => rw [hl] at h2; exact absurd h2 id
  · rintro ⟨k, l, hk, hl, rfl⟩
    have h2 := hs.2 k (Relation.ReflTransGen.trans hn hk)
    rw [hl] at h2
    cases hm : M.kind k with
    | leaf m =>
      rw [hm] at h2
      exact ⟨k, m, by rw [hch]; exact hk, hm, hP l m h2⟩
    | sum cs w => rw [hm] at h2; exact absurd h2 id
    | product cs => rw [hm] at h2; exact absurd h2 id

theorem forall₂_index {α β : Type} {R : α → β → Prop} {l : List α} {m : List β} (h : List.Forall₂ R l m) {i : ℕ} {a : α} (ha : l[i]? = some a) : ∃ b, m[i]? = some b ∧ R a b := by
  induction h generalizing i with
  | nil => simp at ha
  | cons h _ ih =>
    cases i with
    | zero =>
      simp only [List.getElem?_cons_zero, Option.some.injEq] at ha
      subst ha
      exact ⟨_, rfl, h⟩
    | succ i => exact ih (by simpa using ha)

theorem weightedMax_index : ∀ (vs w us : List F), weightedMax vs w = some us → ∀ (i : ℕ) u, us[i]? = some u → ∃ v x, vs[i]? = some v ∧ w[i]? = some x ∧ u = GoFloat.add (GoFloat.log x) v := by
  intro vs
  induction vs with
  | nil =>
    intro w us h i u hu
    simp only [weightedMax, Option.some.injEq] at h
    subst h
    simp at hu
  | cons v vs ih =>
    intro w us h i u hu
    cases w with
    | nil => simp [weightedMax] at h
    | cons x w =>
      simp only [weightedMax, Option.map_eq_some_iff] at h
      obtain ⟨us', h', rfl⟩ := h
      cases i with
      | zero =>
        simp only [List.getElem?_cons_zero, Option.some.injEq] at hu
        exact ⟨v, x, rfl, rfl, hu.symm⟩
      | succ i => exact ih w us' h' i u (by simpa using hu)

/-- The state of `ArgMax` has nearly the probability that was computed for it. -/
theorem argMax_close [Fintype ι] {N : Net ι F} {M : Net ι XR} {S : ι} {I : VarSet} {dom : Int → Set Int} {K : ℕ} {L : ℝ} {cost : ι → ℕ} (hac : Acyclic N.ch)
    (hR : RoundsOn val (L * (cost S + 1) + 4) ε) (hL : 0 ≤ L) (hLK : Real.log K ≤ L) (hK : 1 ≤ K)
    (hs : StoresNet val N S K L ε (fun l m => MaxWithin val I L (2 * ε) l m ∧ ModeWithin val dom I (2 * ε) l m) M) (hcost : Cost N S cost)
    (hsmall : 3 * ε * cost S ≤ 1) (hcS : 1 ≤ cost S) (hcomp : IsComplete M S) (hdec : IsDecomposable M S) (hw : NonnegWeights M S)
    (hl : ∀ n l, Reach M.ch S n → M.kind n = .leaf l → MaxLeaf dom l) :
    ∀ n, Reach N.ch S n → ∀ v a, N.max I n = some v → val v = .fin a → ∃ J, N.argMax I n = some (J, v) ∧ (∀ v, (∃ x, J v = some x) ↔ InScope M n v) ∧
      (∀ v x, InScope M n v → I v = some x → J v = some x) ∧ (∀ v x, J v = some x → x ∈ dom v) ∧ Real.exp (a - 3 * ε * cost n) ≤ M.pmax J n := by
  have hε := hR.eps_nonneg
  have hch : M.ch = N.ch := funext hs.1
  have hac' : Acyclic M.ch := by rw [hch]; exact hac
  have hcS1 : (1 : ℝ) ≤ cost S := by exact_mod_cast hcS
  have hK1 : (1 : ℝ) ≤ K := by exact_mod_cast hK
  have hlK := Real.log_nonneg hK1
  have hLS : 0 ≤ L * cost S := by positivity
  have hmax := max_close hac hR hL hLK hK (I := I) (M := M) (by
    refine ⟨hs.1, fun n hn => ?_⟩
    have h2 := hs.2 n hn
    revert h2
    cases N.kind n <;> cases M.kind n <;> first | exact id | exact fun h => h.1) hcost hsmall hcS
  have hscope := fun {n : ι} (hn : Reach N.ch S n) v => storesNet_scope hs (fun l m h => h.2.1) hn v
  obtain ⟨rank, hr⟩ := id hac
  intro n
  induction hn : rank n using Nat.strong_induction_on generalizing n with
  | _ k ih =>
    intro hreach v a ha hva
    have hreach' : Reach M.ch S n := by rw [hch]; exact hreach
    have ihc := fun c (hc : c ∈ N.ch n) =>
      ih (rank c) (by rw [← hn]; exact hr n c hc) c rfl (Relation.ReflTransGen.tail hreach hc)
    have hn2 := hs.2 n hreach
    have hc0 := hcost n hreach
    have hcn : (cost n : ℝ) ≤ cost S := by exact_mod_cast hcost.le hreach
    have hAn : 3 * ε * cost n ≤ 1 := le_trans (mul_le_mul_of_nonneg_left hcn (by positivity)) hsmall
    have hLn : L * cost n ≤ L * cost S := mul_le_mul_of_nonneg_left hcn hL
    cases hk : N.kind n with
    | leaf l =>
      cases hm : M.kind n with
      | sum ds q => rw [hk, hm] at hn2; exact absurd hn2 id
      | product ds => rw [hk, hm] at hn2; exact absurd hn2 id
      | leaf m =>
      rw [hk, hm] at hn2
      obtain ⟨_, hvar, hmode⟩ := hn2
      rw [Net.max_unfold hac] at ha
      simp only [Net.maxStep, hk] at ha hc0
      have hc1 : (1 : ℝ) ≤ cost n := by exact_mod_cast hc0
      obtain ⟨x, h1, h2, h3, y, h4, h5⟩ := hmode v a ha hva
      refine ⟨VarSet.single (leafVar l) x, ?_, ?_, ?_, ?_, ?_⟩
      · rw [Net.argMax_unfold hac]
        simp [Net.argMaxStep, hk, h1]
      · intro u
        rw [InScope.of_leaf hm, hvar]
        by_cases hu : u = leafVar l
        · subst hu; simp [VarSet.single]
        · simp [VarSet.single, hu, Ne.symm hu]
      · intro u z hu hz
        rw [InScope.of_leaf hm, hvar] at hu
        subst hu
        rw [h3 z hz]
        simp [VarSet.single]
      · intro u z hu
        simp only [VarSet.single] at hu
        split at hu
        · rename_i he
          subst he
          simp only [Option.some.injEq] at hu
          subst hu
          exact h2
        · cases hu
      · have : M.max (VarSet.single (leafVar l) x) n = some y := by
          rw [Net.max_unfold hac']
          simpa [Net.maxStep, hm] using h4
        rw [Net.pmax_some this]
        rw [hva] at h5
        rcases h5.cases with ⟨h, _⟩ | ⟨_, b, h, rfl, hab⟩
        · cases h
        · cases h
          have := (abs_le.1 hab).2
          exact Real.exp_le_exp.2 (by nlinarith)
    | product cs =>
      cases hm : M.kind n with
      | leaf ds => rw [hk, hm] at hn2; exact absurd hn2 id
      | sum ds q => rw [hk, hm] at hn2; exact absurd hn2 id
      | product ds =>
      rw [hk, hm] at hn2
      obtain rfl := hn2
      have hcs : N.ch n = cs := by simp [Net.ch, hk]
      rw [hcs] at ihc
      have hcr : ∀ c ∈ cs, Reach N.ch S c := fun c hc => Relation.ReflTransGen.tail hreach (hcs ▸ hc : c ∈ N.ch n)
      simp only [hk] at hc0
      have hmc := fun c hc => hmax c (hcr c hc)
      have : Nonempty F := ⟨GoFloat.ofInt 0⟩
      have : Nonempty XR := ⟨.ninf⟩
      choose! g y hg hy hgy hya using hmc
      have hav : v = prodCompute (cs.map g) := by
        rw [Net.max_unfold hac] at ha
        simp only [Net.maxStep, hk, mapM_eq_some hg, Option.map_some, Option.some.injEq] at ha
        exact ha.symm
      have hc0' : (cs.map fun c => (cost c : ℝ)).sum + cs.length ≤ cost n := by
        have h1 : ((cs.map fun c => cost c + 1).sum : ℝ) ≤ (cost n : ℝ) := by exact_mod_cast hc0
        have h2 : ∀ l : List ι, ((l.map fun c => cost c + 1).sum : ℝ) = (l.map fun c => (cost c : ℝ)).sum + l.length := by
          intro l
          induction l with
          | nil => simp
          | cons a l ih =>
            simp only [List.map_cons, List.sum_cons, List.length_cons]
            push_cast at ih ⊢
            rw [ih]
            ring
        rw [h2] at h1
        exact h1
      have hsum0 : 0 ≤ (cs.map fun c => (cost c : ℝ)).sum := List.sum_nonneg fun x hx => by
        obtain ⟨c, _, rfl⟩ := List.mem_map.1 hx
        positivity
      have hlen0 : (0 : ℝ) ≤ cs.length := Nat.cast_nonneg _
      have habs : ∀ c ∈ cs, absVal (val (g c)) ≤ (L + 3 * ε) * cost c := by
        intro c hc
        have h1 := hgy c hc
        have h2 := hya c hc
        rcases h1.cases with ⟨e1, e2⟩ | ⟨p, q, e1, e2, hpq⟩
        · rw [e1]
          simp only [absVal]
          positivity
        · rw [e1]
          rw [e2] at h2
          simp only [absVal] at h2 ⊢
          have := abs_sub_abs_le_abs_sub p q
          nlinarith
      have hpc := prod_close hR (cs.map g) ((cs.map g).map val) (cs.map fun _ => (0 : ℝ)) (GoFloat.ofInt 0) (.fin 0) 0 0 (by rw [hR.zero]; simp [Within]) (by simp [absVal])
        (by simp) (by simp)
        (fun i v z e h1 h2 h3 => by
          simp only [List.getElem?_map, Option.map_eq_some_iff] at h1 h2 h3
          obtain ⟨c, hc, rfl⟩ := h1
          obtain ⟨_, ⟨c', hc', rfl⟩, rfl⟩ := h2
          obtain ⟨c'', hc'', rfl⟩ := h3
          rw [hc] at hc'
          cases hc'
          refine ⟨?_, le_rfl⟩
          have := (hgy c (List.mem_of_getElem? hc)).isLogProb.1
          rcases IsLogProb.cases this with h | ⟨r, h⟩ <;> rw [h] <;> simp [Within])
        (by
          have h1 : (((cs.map g).map val).map absVal).sum ≤ (L + 3 * ε) * (cs.map fun c => (cost c : ℝ)).sum := by
            rw [← List.sum_map_mul_left, List.map_map, List.map_map]
            exact List.sum_le_sum fun c hc => habs c hc
          have h2 : (cs.map fun _ => (0 : ℝ)).sum = 0 := by simp
          rw [h2, List.length_map]
          have h3 : L * (cs.map fun c => (cost c : ℝ)).sum ≤ L * cost n := mul_le_mul_of_nonneg_left (by linarith) hL
          have h4 : 3 * ε * ((cs.map fun c => (cost c : ℝ)).sum + cs.length) ≤ 3 * ε * cost n := mul_le_mul_of_nonneg_left hc0' (by positivity)
          have h5 : 0 ≤ (cs.length : ℝ) * ε := by positivity
          nlinarith) le_rfl le_rfl
      have h2 : (cs.map fun _ => (0 : ℝ)).sum = 0 := by simp
      rw [h2, List.length_map, zero_add, zero_add] at hpc
      have hpv : val v = val ((cs.map g).foldl GoFloat.add (GoFloat.ofInt 0)) := by rw [hav]; rfl
      rw [← hpv] at hpc
      obtain ⟨ps1, ps2⟩ := prodCompute_spec ((cs.map g).map val) (fun z hz => by
        obtain ⟨_, hz', rfl⟩ := List.mem_map.1 hz
        obtain ⟨c, hc, rfl⟩ := List.mem_map.1 hz'
        exact (hgy c hc).isLogProb.1)
      have hpe : ((cs.map g).map val).foldl XR.add (.fin 0) = prodCompute ((cs.map g).map val) := by
        unfold prodCompute
        simp only [XR.g_ofInt, Int.cast_zero]
        rfl
      rw [hpe] at hpc
      have hup := (close_unlog hpc).1
      rw [ps2, hva, unlog_fin] at hup
      have hfin : ∀ c ∈ cs, ∃ b, val (g c) = .fin b := by
        intro c hc
        refine isLogProb_fin_of (hgy c hc).isLogProb.1 fun h0 => ?_
        have : (((cs.map g).map val).map unlog).prod = 0 := List.prod_eq_zero (by
          rw [← h0]
          exact List.mem_map_of_mem (List.mem_map_of_mem (List.mem_map_of_mem hc)))
        rw [this, mul_zero] at hup
        exact absurd hup (not_le.2 (Real.exp_pos a))
      have hall : ∀ c ∈ cs, ∃ R : VarSet × F, N.argMax I c = some R ∧ R.2 = g c ∧ (∀ v, (∃ x, R.1 v = some x) ↔ InScope M c v) ∧
          (∀ v x, InScope M c v → I v = some x → R.1 v = some x) ∧ (∀ v x, R.1 v = some x → x ∈ dom v) ∧
          unlog (val (g c)) * Real.exp (-(3 * ε * cost c)) ≤ M.pmax R.1 c := by
        intro c hc
        obtain ⟨b, hb⟩ := hfin c hc
        obtain ⟨J, h1, h2, h3, h4, h5⟩ := ihc c hc (g c) b (hg c hc) hb
        refine ⟨(J, g c), h1, rfl, h2, h3, h4, ?_⟩
        rw [hb, unlog_fin, ← Real.exp_add]
        exact h5
      have : Nonempty (VarSet × F) := ⟨(fun _ => none, GoFloat.ofInt 0)⟩
      choose! R hR' using hall
      have hdis : (cs.map R).Pairwise (fun r s => ∀ v, r.1 v = none ∨ s.1 v = none) := by
        rw [List.pairwise_map]
        have := hdec n hreach' cs hm
        refine this.imp_of_mem ?_
        intro c d hc hd hcd v
        by_contra hcon
        rw [not_or] at hcon
        exact hcd v ⟨((hR' c hc).2.2.1 v).1 (Option.ne_none_iff_exists'.1 hcon.1), ((hR' d hd).2.2.1 v).1 (Option.ne_none_iff_exists'.1 hcon.2)⟩
      set res := (cs.map R).foldl (fun (p : VarSet × F) r => (p.1.override r.1, GoFloat.add p.2 r.2)) ((fun _ => none : VarSet), GoFloat.ofInt 0) with hres
      have harg : N.argMax I n = some res := by
        rw [Net.argMax_unfold hac]
        simp only [Net.argMaxStep, hk, mapM_eq_some (fun c hc => (hR' c hc).1), Option.map_some]
        rfl
      have hval : res.2 = v := by
        have h1 := foldl_pair_snd (cs.map R) (fun _ => none) (GoFloat.ofInt 0)
        have h2 : (cs.map R).map Prod.snd = cs.map g := by
          rw [List.map_map]
          exact List.map_congr_left fun c hc => (hR' c hc).2.1
        rw [hav, ← h2]
        exact h1
      have hM : ∀ c ∈ cs, ∀ v x, (R c).1 v = some x → res.1 v = some x := fun c hc v x hv =>
        foldl_override_mem (cs.map R) _ _ hdis (R c) (List.mem_map_of_mem hc) v x hv
      have hMi : ∀ v x, res.1 v = some x → ∃ c ∈ cs, (R c).1 v = some x := by
        intro v x hv
        rcases foldl_override_inv (cs.map R) _ _ v x hv with h0 | ⟨r, hr, hv⟩
        · cases h0
        · obtain ⟨c, hc, rfl⟩ := List.mem_map.1 hr; exact ⟨c, hc, hv⟩
      have hdomM : ∀ v x, res.1 v = some x → x ∈ dom v := by
        intro v x hv; obtain ⟨c, hc, hv⟩ := hMi v x hv; exact (hR' c hc).2.2.2.2.1 v x hv
      have hcs' : M.ch n = cs := by rw [hch]; exact hcs
      refine ⟨res.1, by rw [harg, ← hval], ?_, ?_, hdomM, ?_⟩
      · intro v
        constructor
        · rintro ⟨x, hx⟩
          obtain ⟨c, hc, hv⟩ := hMi v x hx
          exact InScope.child (hcs' ▸ hc : c ∈ M.ch n) (((hR' c hc).2.2.1 v).1 ⟨x, hv⟩)
        · intro hs
          rcases InScope.inv hs with ⟨l, hl', _⟩ | ⟨c, hc, hs⟩
          · rw [hm] at hl'; cases hl'
          · rw [hcs'] at hc
            obtain ⟨x, hx⟩ := ((hR' c hc).2.2.1 v).2 hs
            exact ⟨x, hM c hc v x hx⟩
      · intro v x hs hI
        rcases InScope.inv hs with ⟨l, hl', _⟩ | ⟨c, hc, hs⟩
        · rw [hm] at hl'; cases hl'
        · rw [hcs'] at hc
          exact hM c hc v x ((hR' c hc).2.2.2.1 v x hs hI)
      · have hJ : InDomain M S dom res.1 := fun v _ x hx => hdomM v x hx
        have hmr : ∀ c ∈ cs, M.pmax res.1 c = M.pmax (R c).1 c := by
          intro c hc
          unfold Net.pmax
          rw [Net.max_congr hac']
          intro v hv
          obtain ⟨x, hx⟩ := ((hR' c hc).2.2.1 v).2 hv
          rw [hx]; exact hM c hc v x hx
        rw [Net.max_product hac' hw (leaves_max hl hJ) hreach' hm, List.map_congr_left hmr]
        have hlow : ∀ l : List ι, (∀ c ∈ l, c ∈ cs) →
            (l.map fun c => unlog (val (g c))).prod * Real.exp (-(3 * ε * (l.map fun c => (cost c : ℝ)).sum)) ≤ (l.map fun c => M.pmax (R c).1 c).prod := by
          intro l
          induction l with
          | nil => intro _; simp
          | cons c l ihl =>
            intro hl'
            have h1 := ihl fun d hd => hl' d (by simp [hd])
            have h2 := (hR' c (hl' c (by simp))).2.2.2.2.2
            simp only [List.map_cons, List.prod_cons, List.sum_cons]
            have e : Real.exp (-(3 * ε * ((cost c : ℝ) + (l.map fun c => (cost c : ℝ)).sum))) =
                Real.exp (-(3 * ε * cost c)) * Real.exp (-(3 * ε * (l.map fun c => (cost c : ℝ)).sum)) := by
              rw [← Real.exp_add]
              congr 1
              ring
            rw [e]
            have h3 : 0 ≤ (l.map fun c => unlog (val (g c))).prod * Real.exp (-(3 * ε * (l.map fun c => (cost c : ℝ)).sum)) := by
              refine mul_nonneg (List.prod_nonneg fun x hx => ?_) (Real.exp_pos _).le
              obtain ⟨d, _, rfl⟩ := List.mem_map.1 hx
              exact unlog_nonneg _
            have h4 : 0 ≤ unlog (val (g c)) * Real.exp (-(3 * ε * cost c)) := mul_nonneg (unlog_nonneg _) (Real.exp_pos _).le
            calc _ = (unlog (val (g c)) * Real.exp (-(3 * ε * cost c))) * ((l.map fun c => unlog (val (g c))).prod * Real.exp (-(3 * ε * (l.map fun c => (cost c : ℝ)).sum))) := by ring
              _ ≤ M.pmax (R c).1 c * (l.map fun c => M.pmax (R c).1 c).prod := mul_le_mul h2 h1 h3 (le_trans h4 h2)
        refine le_trans ?_ (hlow cs fun _ h => h)
        have he : (cs.map fun c => unlog (val (g c))).prod = (((cs.map g).map val).map unlog).prod := by
          rw [List.map_map, List.map_map]
          rfl
        rw [he]
        have h6 : Real.exp a * Real.exp (-(cs.length * ε)) ≤ (((cs.map g).map val).map unlog).prod := by
          have := mul_le_mul_of_nonneg_right hup (Real.exp_pos (-(cs.length * ε))).le
          have e : Real.exp (cs.length * ε) * (((cs.map g).map val).map unlog).prod * Real.exp (-(cs.length * ε)) = (((cs.map g).map val).map unlog).prod := by
            rw [mul_right_comm, ← Real.exp_add]
            simp
          rwa [e] at this
        refine le_trans ?_ (mul_le_mul_of_nonneg_right h6 (Real.exp_pos _).le)
        rw [← Real.exp_add, ← Real.exp_add]
        refine Real.exp_le_exp.2 ?_
        have h4 : 3 * ε * ((cs.map fun c => (cost c : ℝ)).sum + cs.length) ≤ 3 * ε * cost n := mul_le_mul_of_nonneg_left hc0' (by positivity)
        have h5 : 0 ≤ (cs.length : ℝ) * ε := by positivity
        nlinarith
    | sum cs w =>
      cases hm : M.kind n with
      | leaf ds => rw [hk, hm] at hn2; exact absurd hn2 id
      | product ds => rw [hk, hm] at hn2; exact absurd hn2 id
      | sum ds q =>
      rw [hk, hm] at hn2
      obtain ⟨rfl, hne, hlenK, hlenw, hwq⟩ := hn2
      have hcs : N.ch n = cs := by simp [Net.ch, hk]
      have hcs' : M.ch n = cs := by rw [hch]; exact hcs
      rw [hcs] at ihc
      have hcr : ∀ c ∈ cs, Reach N.ch S c := fun c hc => Relation.ReflTransGen.tail hreach (hcs ▸ hc : c ∈ N.ch n)
      simp only [hk] at hc0
      have hmc := fun c hc => hmax c (hcr c hc)
      have : Nonempty F := ⟨GoFloat.ofInt 0⟩
      have : Nonempty XR := ⟨.ninf⟩
      choose! g y hg hy hgy hya using hmc
      rw [Net.max_unfold hac] at ha
      simp only [Net.maxStep, hk, mapM_eq_some hg, Option.bind_some, Option.map_eq_some_iff] at ha
      obtain ⟨us, hus, hum⟩ := ha
      have hlen := weightedMax_length _ _ _ hus
      rw [List.length_map] at hlen
      have hv := argMaxChild_value cs us (none, GoFloat.ninf) hlen
      have hv' : (argMaxChild (cs.zip us) (none, GoFloat.ninf)).2 = v := hv.trans hum
      rcases argMaxChild_cases (cs.zip us) (none, GoFloat.ninf) with h0 | ⟨c, u, h0, hmem⟩
      · rw [h0] at hv'
        simp only at hv'
        rw [← hv', hR.ninf] at hva
        cases hva
      · rw [h0] at hv'
        simp only at hv'
        subst hv'
        obtain ⟨i, hi, hu⟩ := mem_zip_index hmem
        have hc : c ∈ cs := List.mem_of_getElem? hi
        obtain ⟨gc, x, hgc, hx, rfl⟩ := weightedMax_index _ _ _ hus i u hu
        have hgc' : gc = g c := by
          rw [List.getElem?_map, hi] at hgc
          simpa using hgc.symm
        subst hgc'
        obtain ⟨q0, hq0, hst⟩ := forall₂_index hwq hx
        have hcc : (cost c : ℝ) + 1 ≤ cost n := by exact_mod_cast hc0 c hc
        have habs : absVal (val (g c)) ≤ (L + 3 * ε) * cost c := by
          have h1 := hgy c hc
          have h2 := hya c hc
          rcases h1.cases with ⟨e1, e2⟩ | ⟨p, r, e1, e2, hpq⟩
          · rw [e1]
            simp only [absVal]
            positivity
          · rw [e1]
            rw [e2] at h2
            simp only [absVal] at h2 ⊢
            have := abs_sub_abs_le_abs_sub p r
            nlinarith
        have hLc : L * (cost c + 1) ≤ L * cost n := mul_le_mul_of_nonneg_left hcc hL
        have hεc : 3 * ε * (cost c + 1) ≤ 3 * ε * cost n := mul_le_mul_of_nonneg_left hcc (by positivity)
        have hself : Within 0 (val (g c)) (val (g c)) := by
          rcases IsLogProb.cases (hgy c hc).isLogProb.1 with h | ⟨r, h⟩ <;> rw [h] <;> simp [Within]
        have hone := weightedMax_one hR hself hst (by nlinarith) (by nlinarith)
        rw [hva, zero_add] at hone
        obtain ⟨_, s, _, rfl, _, hs0, _, _⟩ := hst
        have hup := (close_unlog hone).1
        rw [(add_spec (log_nonneg_spec hs0).1 (hgy c hc).isLogProb.1).2, (log_nonneg_spec hs0).2, unlog_fin] at hup
        obtain ⟨b, hb⟩ := isLogProb_fin_of (hgy c hc).isLogProb.1 fun hz => by
          rw [hz, mul_zero, mul_zero] at hup
          exact absurd hup (not_le.2 (Real.exp_pos a))
        rw [hb, unlog_fin] at hup
        obtain ⟨J, g1, g2, g3, g4, g5⟩ := ihc c hc (g c) b (hg c hc) hb
        have hsame : ∀ v, InScope M c v ↔ InScope M n v := by
          intro v
          constructor
          · intro hs; exact InScope.child (hcs' ▸ hc : c ∈ M.ch n) hs
          · intro hs
            rcases InScope.inv hs with ⟨l, hl', _⟩ | ⟨d, hd, hs⟩
            · rw [hm] at hl'; cases hl'
            · exact hcomp n hreach' cs _ hm d (hcs' ▸ hd) c hc v hs
        refine ⟨J, ?_, fun v => (g2 v).trans (hsame v), fun v x hs => g3 v x ((hsame v).2 hs), g4, ?_⟩
        · rw [Net.argMax_unfold hac]
          simp only [Net.argMaxStep, hk, mapM_eq_some hg, Option.bind_some, hus, h0]
          rw [g1]; rfl
        · obtain ⟨_, r, hqr, hrl, _⟩ := hw n hreach' cs q hm
          subst hqr
          obtain ⟨g', us', k1, k2, k3, k4, k5, k6, k7, k8⟩ := Net.max_sum hac' hw (leaves_max hl fun v _ x hx => g4 v x hx) hreach' hm
          rw [List.getElem?_map, Option.map_eq_some_iff] at hq0
          obtain ⟨s', hs', hs'e⟩ := hq0
          cases hs'e
          have h1 : (us'.map unlog)[i]? = some (s * M.pmax J c) := by rw [k5, List.getElem?_zipWith]; simp [hi, hs']
          rw [List.getElem?_map, Option.map_eq_some_iff] at h1
          obtain ⟨u', hu', hue⟩ := h1
          rw [Net.pmax_some k6]
          refine le_trans ?_ ((maxCompute_spec us' k4).2.2 u' (List.mem_of_getElem? hu'))
          rw [hue]
          have h3 : s * Real.exp (b - 3 * ε * cost c) ≤ s * M.pmax J c := mul_le_mul_of_nonneg_left g5 hs0
          refine le_trans ?_ h3
          have e1 : Real.exp (a - 3 * ε * (cost c + 1)) = Real.exp a * Real.exp (-(3 * ε * (cost c + 1))) := by rw [← Real.exp_add]; congr 1
          have h4 := mul_le_mul_of_nonneg_right hup (Real.exp_pos (-(3 * ε * (cost c + 1)))).le
          rw [← e1] at h4
          have e2 : Real.exp (ε + 2 * ε) * (s * Real.exp b) * Real.exp (-(3 * ε * (cost c + 1))) = s * Real.exp (b - 3 * ε * cost c) := by
            have : Real.exp (b - 3 * ε * cost c) = Real.exp (ε + 2 * ε) * Real.exp b * Real.exp (-(3 * ε * (cost c + 1))) := by
              rw [← Real.exp_add, ← Real.exp_add]
              congr 1
              ring
            rw [this]
            ring
          rw [e2] at h4
          refine le_trans (Real.exp_le_exp.2 ?_) h4
          linarith

theorem stores_log (hR : RoundsOn val B ε) {L δ : ℝ} (hL : 0 ≤ L) (hδ : 0 ≤ δ) (hB : L + δ ≤ B) {x : F} {y : XR} (h : Stores val L δ x y) :
    Within (δ + ε) (val (GoFloat.log x)) (GoFloat.log y) ∧ absVal (GoFloat.log y) ≤ L := by
  obtain ⟨r, s, hr1, rfl, hr0, hs0, hrs, hsl⟩ := h
  by_cases h0 : s = 0
  · have := hrs.2 h0
    subst h0 this
    rw [hR.log_zero _ hr1, XR.g_log, XR.log_zero]
    exact ⟨trivial, hL⟩
  · have hsp := lt_of_le_of_ne hs0 (Ne.symm h0)
    have hrp := lt_of_le_of_ne hr0 (fun h => h0 (hrs.1 h.symm))
    obtain ⟨h1, h2⟩ := hsl h0
    have h3 : |Real.log r| ≤ B := by
      have := abs_sub_abs_le_abs_sub (Real.log r) (Real.log s)
      linarith
    obtain ⟨z, hz, hze⟩ := hR.log x r hr1 hrp h3
    rw [hz, XR.g_log, XR.log_pos hsp]
    refine ⟨?_, h1⟩
    simp only [Within]
    have := abs_sub_le z (Real.log r) (Real.log s)
    linarith

/-- The largest stored probability is close to the largest probability. -/
theorem stores_max (hR : RoundsOn val B ε) {L δ : ℝ} {pr : List F} {q : List ℝ} (h : List.Forall₂ (Stores val L δ) pr (q.map XR.fin)) {k j : ℕ} {p : F} {m : ℝ}
    (hk : pr[k]? = some p) (hp : ∀ x ∈ pr, GoFloat.lt p x = false) (hj : q[j]? = some m) (hm : ∀ x ∈ q, x ≤ m) : Stores val L δ p (.fin m) := by
  obtain ⟨y, hy, r, s, hr1, rfl, hr0, hs0, hrs, hsl⟩ := forall₂_index h hk
  have hsm : s ≤ m := by
    have := List.mem_of_getElem? hy
    simp only [List.mem_map, XR.fin.injEq, exists_eq_right] at this
    exact hm s this
  have hj' : (q.map XR.fin)[j]? = some (.fin m) := by simp [hj]
  obtain ⟨x, hx, r', s', hr1', hm', hr0', hs0', hrs', hsl'⟩ := forall₂_index h.flip hj'
  cases hm'
  have hlt := hp x (List.mem_of_getElem? hx)
  rw [hR.lt, hr1, hr1'] at hlt
  have hle : r' ≤ r := by simpa [XR.lt] using hlt
  refine ⟨r, m, hr1, rfl, hr0, hs0', ⟨fun h0 => ?_, fun h0 => ?_⟩, fun h0 => ?_⟩
  · exact hrs'.1 (le_antisymm (h0 ▸ hle) hr0')
  · exact hrs.2 (le_antisymm (h0 ▸ hsm) hs0)
  · have hr'p : 0 < r' := lt_of_le_of_ne hr0' fun h => h0 (hrs'.1 h.symm)
    have hrp : 0 < r := lt_of_lt_of_le hr'p hle
    have hs1 : s ≠ 0 := fun h => hrp.ne' (hrs.2 h)
    have hsp : 0 < s := lt_of_le_of_ne hs0 (Ne.symm hs1)
    obtain ⟨a1, a2⟩ := hsl' h0
    obtain ⟨b1, b2⟩ := hsl hs1
    refine ⟨a1, ?_⟩
    have c1 := Real.log_le_log hr'p hle
    have c2 := Real.log_le_log hsp hsm
    rw [abs_le] at a2 b2 ⊢
    constructor <;> linarith [a2.1, a2.2, b2.1, b2.2]

theorem storesModeLeaf_within {I : VarSet} {dom : Int → Set Int} {L δ : ℝ} (hR : RoundsOn val B ε) (hL : 0 ≤ L) (hδ : 0 ≤ δ) (hB : L + δ ≤ B) {l : Leaf F} {m : Leaf XR} (h : StoresModeLeaf val dom I L δ l m)
    (hm : MaxLeaf dom m) (hI : ∀ u, I (leafVar m) = some u → u ∈ dom (leafVar m)) : MaxWithin val I L (δ + ε) l m ∧ ModeWithin val dom I (δ + ε) l m := by
  have hε := hR.eps_nonneg
  cases l with
  | gaussian v mu s => cases m <;> exact absurd h id
  | indicator v x =>
    cases m with
    | gaussian v mu s => exact absurd h id
    | multinomial sc v q mi mv => exact absurd h id
    | indicator v' x' =>
    obtain ⟨rfl, rfl, hx⟩ := h
    simp only [MaxWithin, ModeWithin, Leaf.max, Leaf.argMax, leafVar] at hI ⊢
    cases hIv : I v with
    | none =>
      obtain ⟨rfl, h0⟩ : x = 0 ∧ 0 ∈ dom v := by
        rcases hx with h | h
        · exact absurd hIv h
        · exact h
      refine ⟨⟨_, _, rfl, rfl, by rw [hR.zero]; simp [Within]; linarith, by simp [absVal, hL]⟩, trivial, ?_⟩
      intro w a hw hwa
      cases hw
      refine ⟨0, rfl, h0, fun z h => (by cases h), .fin 0, by simp [VarSet.single], ?_⟩
      rw [hR.zero]; simp [Within]; linarith
    | some u =>
      by_cases hu : u = x
      · subst hu
        simp only [if_true]
        refine ⟨⟨_, _, rfl, rfl, by rw [hR.zero]; simp [Within]; linarith, by simp [absVal, hL]⟩, trivial, ?_⟩
        intro w a hw hwa
        cases hw
        refine ⟨u, rfl, hI u hIv, fun z h => (by cases h; rfl), .fin 0, by simp [VarSet.single], ?_⟩
        rw [hR.zero]; simp [Within]; linarith
      · simp only [hu, if_false]
        refine ⟨⟨_, _, rfl, rfl, by rw [hR.ninf]; trivial, by simp [absVal, hL]⟩, trivial, ?_⟩
        intro w a hw hwa
        cases hw
        rw [hR.ninf] at hwa
        cases hwa
  | multinomial sc v pr mi mv =>
    cases m with
    | gaussian v mu s => exact absurd h id
    | indicator v' x' => exact absurd h id
    | multinomial sc' v' q mi' mv' =>
    obtain ⟨rfl, h1, k, rfl, hk, hkm, hkd⟩ := h
    obtain ⟨r, j, b, rfl, hr0, rfl, hj, rfl, hb, hjd, hd⟩ := hm
    have hidx : ∀ u ∈ dom v, ∃ p y, goIdx pr u = some p ∧ goIdx (r.map XR.fin) u = some y ∧ Stores val L δ p y := by
      intro u hu
      obtain ⟨hu0, hul⟩ := hd u hu
      have hlt' : u.toNat < (r.map XR.fin).length := by rw [List.length_map]; omega
      have hlt : u.toNat < pr.length := by rw [h1.length_eq]; exact hlt'
      refine ⟨pr[u.toNat], (r.map XR.fin)[u.toNat], ?_, ?_, (List.forall₂_iff_get.1 h1).2 u.toNat hlt hlt'⟩
      · simp [goIdx, Int.not_lt.2 hu0, hlt]
      · simp only [goIdx, Int.not_lt.2 hu0, if_false]
        exact List.getElem?_eq_getElem hlt'
    simp only [MaxWithin, ModeWithin, Leaf.max, Leaf.argMax, leafVar] at hI ⊢
    cases hIv : I v with
    | none =>
      have hst := stores_log hR hL hδ hB (stores_max hR h1 hk hkm hj hb)
      refine ⟨⟨_, _, rfl, rfl, hst.1, hst.2⟩, trivial, ?_⟩
      intro w a hw hwa
      cases hw
      obtain ⟨p, y, hp, hy, hpy⟩ := hidx k hkd
      have hpm : p = mv := by
        simp only [goIdx] at hp
        rw [if_neg (by omega), Int.toNat_natCast, hk] at hp
        exact (Option.some.inj hp).symm
      subst hpm
      refine ⟨k, rfl, hkd, fun z h => (by cases h), _, by simp only [VarSet.single, if_true, hy, Option.map_some], (stores_log hR hL hδ hB hpy).1⟩
    | some u =>
      have hud := hI u hIv
      obtain ⟨p, y, hp, hy, hpy⟩ := hidx u hud
      have hst := stores_log hR hL hδ hB hpy
      simp only [hp, hy, Option.map_some]
      refine ⟨⟨_, _, rfl, rfl, hst.1, hst.2⟩, trivial, ?_⟩
      intro w a hw hwa
      cases hw
      exact ⟨u, rfl, hud, fun z h => (by cases h; rfl), _, by simp only [VarSet.single, if_true, hy, Option.map_some], hst.1⟩

theorem storesNet_cost {N : Net ι F} {M : Net ι XR} {S : ι} {K : ℕ} {L δ : ℝ} {P : Leaf F → Leaf XR → Prop} (hs : StoresNet val N S K L δ P M) {cost : ι → ℕ} (hcost : Cost M S cost) : Cost N S cost := by
  have hchf : M.ch = N.ch := funext hs.1
  intro n hn
  have h1 := hcost n (by rw [hchf]; exact hn)
  have h2 := hs.2 n hn
  cases hk : N.kind n with
  | leaf l =>
    cases hm : M.kind n <;> rw [hk, hm] at h2
    · exact absurd h2 id
    · exact absurd h2 id
    · rw [hm] at h1; exact h1
  | sum cs w =>
    cases hm : M.kind n <;> rw [hk, hm] at h2
    · rw [hm] at h1
      rw [h2.1]
      exact h1
    · exact absurd h2 id
    · exact absurd h2 id
  | product cs =>
    cases hm : M.kind n <;> rw [hk, hm] at h2
    · exact absurd h2 id
    · rw [hm] at h1
      rw [show cs = _ from h2]
      exact h1
    · exact absurd h2 id

end Gospn
