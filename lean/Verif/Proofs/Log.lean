import Verif.Model.Log
import Verif.Spec.LogSpace
import Mathlib.Tactic.Linarith
import Mathlib.Tactic.Ring
import Mathlib.Tactic.FieldSimp
import Mathlib.Tactic.Positivity
set_option linter.unusedSectionVars false
namespace Gospn
open Spec GoFloat

/-! ### XR -/
namespace XR

@[simp] theorem g_add (x y : XR) : GoFloat.add x y = XR.add x y := rfl
@[simp] theorem g_sub (x y : XR) : GoFloat.sub x y = XR.sub x y := rfl
@[simp] theorem g_mul (x y : XR) : GoFloat.mul x y = XR.mul x y := rfl
@[simp] theorem g_div (x y : XR) : GoFloat.div x y = XR.div x y := rfl
@[simp] theorem g_log (x : XR) : GoFloat.log x = XR.log x := rfl
@[simp] theorem g_exp (x : XR) : GoFloat.exp x = XR.exp x := rfl
@[simp] theorem g_log1p (x : XR) : GoFloat.log1p x = XR.log (XR.add (fin 1) x) := rfl
@[simp] theorem g_sqrt (x : XR) : GoFloat.sqrt x = XR.sqrt x := rfl
@[simp] theorem g_ninf : (GoFloat.ninf : XR) = XR.ninf := rfl
@[simp] theorem g_lt (x y : XR) : GoFloat.lt x y = XR.lt x y := rfl
@[simp] theorem g_le (x y : XR) : GoFloat.le x y = (XR.lt x y || XR.eq x y) := rfl
@[simp] theorem g_eq (x y : XR) : GoFloat.eq x y = XR.eq x y := rfl
@[simp] theorem g_isInf (x : XR) : GoFloat.isInf x = XR.isInf x := rfl
@[simp] theorem g_ofInt (n : Int) : (GoFloat.ofInt n : XR) = fin n := rfl
@[simp] theorem g_toInt (x : XR) : GoFloat.toInt x = XR.toInt x := rfl
@[simp] theorem g_round (x : XR) : GoFloat.round x = XR.round x := rfl
@[simp] theorem g_floor (x : XR) : GoFloat.floor x = XR.floor x := rfl
@[simp] theorem g_abs (x : XR) : GoFloat.abs x = XR.abs x := rfl
@[simp] theorem g_pinf : (GoFloat.pinf : XR) = XR.pinf := rfl
@[simp] theorem g_normLogProb (m s x : XR) : GoFloat.normLogProb m s x = XR.normLogProb m s x := rfl

@[simp] theorem add_fin (a b : ℝ) : add (fin a) (fin b) = fin (a + b) := rfl
@[simp] theorem sub_fin (a b : ℝ) : sub (fin a) (fin b) = fin (a - b) := by simp [sub, neg, sub_eq_add_neg]
@[simp] theorem mul_fin (a b : ℝ) : mul (fin a) (fin b) = fin (a * b) := rfl
@[simp] theorem div_fin {a b : ℝ} (h : b ≠ 0) : div (fin a) (fin b) = fin (a / b) := by simp [div, h]
@[simp] theorem exp_fin (a : ℝ) : exp (fin a) = fin (Real.exp a) := rfl
@[simp] theorem exp_ninf : exp ninf = fin 0 := rfl
theorem log_pos {a : ℝ} (h : 0 < a) : log (fin a) = fin (Real.log a) := by simp [log, h]
@[simp] theorem log_zero : log (fin 0) = ninf := by simp [log]
@[simp] theorem lt_fin (a b : ℝ) : lt (fin a) (fin b) = true ↔ a < b := by simp [lt]
@[simp] theorem eq_fin (a b : ℝ) : eq (fin a) (fin b) = true ↔ a = b := by simp [eq]
@[simp] theorem isInf_fin (a : ℝ) : isInf (fin a) = false := rfl
@[simp] theorem isInf_ninf : isInf ninf = true := rfl
@[simp] theorem add_ninf_fin (a : ℝ) : add ninf (fin a) = ninf := rfl
@[simp] theorem add_fin_ninf (a : ℝ) : add (fin a) ninf = ninf := rfl
@[simp] theorem add_ninf_ninf : add ninf ninf = ninf := rfl
@[simp] theorem sub_ninf_fin (a : ℝ) : sub ninf (fin a) = ninf := rfl

end XR

@[simp] theorem isLogProb_fin (r : ℝ) : IsLogProb (.fin r) := trivial
@[simp] theorem isLogProb_ninf : IsLogProb .ninf := trivial
@[simp] theorem unlog_fin (r : ℝ) : unlog (.fin r) = Real.exp r := rfl
@[simp] theorem unlog_ninf : unlog .ninf = 0 := rfl

theorem IsLogProb.cases {x : XR} (h : IsLogProb x) : x = .ninf ∨ ∃ r, x = .fin r := by
  cases x <;> simp_all [IsLogProb]

theorem unlog_nonneg (x : XR) : 0 ≤ unlog x := by
  cases x <;> simp [unlog, Real.exp_nonneg]

theorem unlog_inj {x y : XR} (hx : IsLogProb x) (hy : IsLogProb y) (h : unlog x = unlog y) : x = y := by
  rcases IsLogProb.cases hx with rfl | ⟨a, rfl⟩ <;> rcases IsLogProb.cases hy with rfl | ⟨b, rfl⟩
  · rfl
  · simp at h; exact absurd h.symm (Real.exp_ne_zero b)
  · simp at h
  · simp at h; rw [h]

theorem unlog_eq_zero {x : XR} (hx : IsLogProb x) : unlog x = 0 ↔ x = .ninf := by
  constructor
  · intro h; exact unlog_inj hx isLogProb_ninf (by simpa using h)
  · rintro rfl; rfl

theorem lt_iff_unlog {x y : XR} (hx : IsLogProb x) (hy : IsLogProb y) : XR.lt x y = true ↔ unlog x < unlog y := by
  rcases IsLogProb.cases hx with rfl | ⟨a, rfl⟩ <;> rcases IsLogProb.cases hy with rfl | ⟨b, rfl⟩
  · simp [XR.lt]
  · simp [XR.lt, Real.exp_pos]
  · simp [XR.lt, Real.exp_nonneg]
  · simp

/-- Logarithm of a non-negative number. -/
theorem log_nonneg_spec {a : ℝ} (h : 0 ≤ a) : IsLogProb (XR.log (.fin a)) ∧ unlog (XR.log (.fin a)) = a := by
  rcases h.eq_or_lt with rfl | h
  · simp
  · simp [XR.log_pos h, Real.exp_log h]

theorem add_spec {x y : XR} (hx : IsLogProb x) (hy : IsLogProb y) :
    IsLogProb (XR.add x y) ∧ unlog (XR.add x y) = unlog x * unlog y := by
  rcases IsLogProb.cases hx with rfl | ⟨a, rfl⟩ <;> rcases IsLogProb.cases hy with rfl | ⟨b, rfl⟩ <;> simp [Real.exp_add]

/-- `exp (v - m)` for a log-probability `v` and a finite `m`. -/
theorem exp_sub_spec {v : XR} (hv : IsLogProb v) (m : ℝ) : XR.exp (XR.sub v (.fin m)) = .fin (unlog v / Real.exp m) := by
  rcases IsLogProb.cases hv with rfl | ⟨a, rfl⟩
  · simp
  · simp [Real.exp_sub]

/-! ### Folds -/

theorem foldl_max_spec (l : List XR) : ∀ (m : XR), IsLogProb m → (∀ v ∈ l, IsLogProb v) →
    let r := l.foldl (fun m v => if XR.lt m v then v else m) m
    IsLogProb r ∧ (r = m ∨ r ∈ l) ∧ unlog m ≤ unlog r ∧ ∀ v ∈ l, unlog v ≤ unlog r := by
  induction l with
  | nil => intro m hm _; simp [hm]
  | cons a l ih =>
    intro m hm hl
    have ha := hl a (by simp)
    simp only [List.foldl_cons]
    by_cases h : XR.lt m a = true
    · obtain ⟨h1, h2, h3, h4⟩ := ih a ha (fun v hv => hl v (by simp [hv]))
      have hlt := (lt_iff_unlog hm ha).1 h
      simp only [h, if_true]
      refine ⟨h1, ?_, by linarith, ?_⟩
      · rcases h2 with h2 | h2
        · right; rw [h2]; simp
        · right; simp [h2]
      · intro v hv
        rcases List.mem_cons.1 hv with rfl | hv
        · exact h3
        · exact h4 v hv
    · obtain ⟨h1, h2, h3, h4⟩ := ih m hm (fun v hv => hl v (by simp [hv]))
      have hlt : unlog a ≤ unlog m := not_lt.1 (fun hc => h ((lt_iff_unlog hm ha).2 hc))
      simp only [h, Bool.false_eq_true, if_false]
      refine ⟨h1, ?_, h3, ?_⟩
      · rcases h2 with h2 | h2
        · exact Or.inl h2
        · right; simp [h2]
      · intro v hv
        rcases List.mem_cons.1 hv with rfl | hv
        · linarith
        · exact h4 v hv

theorem foldl_add_fin {α : Type} (f : α → XR) (g : α → ℝ) (l : List α) (h : ∀ v ∈ l, f v = .fin (g v)) (x : ℝ) :
    l.foldl (fun s v => XR.add s (f v)) (.fin x) = .fin (x + (l.map g).sum) := by
  induction l generalizing x with
  | nil => simp
  | cons a l ih =>
    simp only [List.foldl_cons, h a (by simp), XR.add_fin]
    rw [ih (fun v hv => h v (by simp [hv]))]
    simp [add_assoc]

theorem sum_div_const (l : List XR) (c : ℝ) : (l.map (fun v => unlog v / c)).sum = (l.map unlog).sum / c := by
  induction l with
  | nil => simp
  | cons a l ih => simp [ih, add_div]

theorem sum_nonneg_of {l : List XR} : 0 ≤ (l.map unlog).sum := by
  induction l with
  | nil => simp
  | cons a l ih => have := unlog_nonneg a; simp; linarith

theorem le_sum_of_mem {l : List XR} {v : XR} (h : v ∈ l) : unlog v ≤ (l.map unlog).sum := by
  induction l with
  | nil => cases h
  | cons a l ih =>
    rcases List.mem_cons.1 h with rfl | h
    · have : 0 ≤ (l.map unlog).sum := sum_nonneg_of
      simp; linarith
    · have := unlog_nonneg a
      have := ih h
      simp; linarith

theorem sum_eq_zero_of {l : List XR} (h : ∀ v ∈ l, unlog v = 0) : (l.map unlog).sum = 0 := by
  induction l with
  | nil => simp
  | cons a l ih => simp [h a (by simp), ih (fun v hv => h v (by simp [hv]))]

/-- LogSumExp is the logarithm of the sum. -/
theorem logSumExp_spec {l : List XR} (hne : l ≠ []) (hl : ∀ v ∈ l, IsLogProb v) :
    ∃ r, logSumExp l = some r ∧ IsLogProb r ∧ unlog r = (l.map unlog).sum := by
  cases l with
  | nil => exact absurd rfl hne
  | cons a0 a =>
    have ha0 := hl a0 (by simp)
    obtain ⟨h1, h2, h3, h4⟩ := foldl_max_spec (a0 :: a) a0 ha0 hl
    simp only [logSumExp, XR.g_lt, XR.g_isInf, XR.g_add, XR.g_log, XR.g_exp, XR.g_sub, XR.g_ofInt]
    generalize hm : (a0 :: a).foldl (fun m v => if XR.lt m v = true then v else m) a0 = m at h1 h2 h3 h4
    rcases IsLogProb.cases h1 with rfl | ⟨r, rfl⟩
    · refine ⟨.ninf, by simp, trivial, ?_⟩
      rw [sum_eq_zero_of]; · rfl
      intro v hv
      have := h4 v hv
      have h0 := unlog_nonneg v
      simp at this; linarith
    · have hfold := foldl_add_fin (fun v => XR.exp (XR.sub v (.fin r))) (fun v => unlog v / Real.exp r) (a0 :: a)
        (fun v hv => exp_sub_spec (hl v hv) r) 0
      simp only [Int.cast_zero]
      rw [hfold]
      have hmem : XR.fin r ∈ a0 :: a := by
        rcases h2 with h2 | h2
        · rw [h2]; simp
        · exact h2
      have hpos : 0 < ((a0 :: a).map unlog).sum := by
        have := le_sum_of_mem hmem
        have := Real.exp_pos r
        simp only [unlog_fin] at *; linarith
      rw [sum_div_const, zero_add]
      have hq : 0 < ((a0 :: a).map unlog).sum / Real.exp r := div_pos hpos (Real.exp_pos r)
      refine ⟨_, by rw [if_neg (by simp)], ?_, ?_⟩
      · rw [XR.log_pos hq]; trivial
      · rw [XR.log_pos hq]
        simp only [XR.add_fin, unlog_fin, Real.exp_add, Real.exp_log hq]
        field_simp

theorem logSumExpPair_spec {x y : XR} (hx : IsLogProb x) (hy : IsLogProb y) :
    IsLogProb (logSumExpPair x y) ∧ unlog (logSumExpPair x y) = unlog x + unlog y := by
  rcases IsLogProb.cases hx with rfl | ⟨a, rfl⟩ <;> rcases IsLogProb.cases hy with rfl | ⟨b, rfl⟩
  · simp [logSumExpPair, XR.eq, XR.lt]
  · simp [logSumExpPair, XR.eq, XR.lt]
  · simp [logSumExpPair, XR.eq, XR.lt]
  · have key : ∀ a b : ℝ, (1 + Real.exp (b - a)) * Real.exp a = Real.exp a + Real.exp b := by
      intro a b; rw [Real.exp_sub]; field_simp
    have hp : ∀ t : ℝ, 0 < 1 + Real.exp t := fun t => by have := Real.exp_pos t; linarith
    by_cases h : b ≤ a
    · have : (XR.lt (.fin b) (.fin a) || XR.eq (.fin b) (.fin a)) = true := by
        rw [Bool.or_eq_true]; simp; exact h.lt_or_eq
      simp only [logSumExpPair, XR.g_le, this, if_true, XR.g_isInf, XR.isInf_fin, XR.g_add, XR.g_log, XR.g_exp, XR.g_sub, XR.g_ofInt, XR.sub_fin, XR.exp_fin,
        XR.add_fin, Int.cast_one, XR.log_pos (hp _)]
      simp [Real.exp_add, Real.exp_log (hp _), key]
    · have : ¬ (XR.lt (.fin b) (.fin a) || XR.eq (.fin b) (.fin a)) = true := by
        rw [Bool.or_eq_true]; simp; push Not at h; exact ⟨h.le, h.ne'⟩
      simp only [logSumExpPair, XR.g_le, this, Bool.false_eq_true, if_false, XR.g_isInf, XR.isInf_fin, XR.g_add, XR.g_log, XR.g_exp, XR.g_sub, XR.g_ofInt, XR.sub_fin, XR.exp_fin,
        XR.add_fin, Int.cast_one, XR.log_pos (hp _)]
      simp only [isLogProb_fin, unlog_fin, true_and, Real.exp_add, Real.exp_log (hp _), key]
      exact add_comm _ _

/-! ### LogSum, LogProd, LogSumPair -/

theorem logProdFrom_spec (p : List ℝ) : ∀ (lg : XR), IsLogProb lg → (∀ q ∈ p, 0 ≤ q) →
    IsLogProb (logProdFrom lg (p.map XR.fin)) ∧ unlog (logProdFrom lg (p.map XR.fin)) = unlog lg * p.prod := by
  induction p with
  | nil => intro lg h _; simp [logProdFrom, h]
  | cons q p ih =>
    intro lg h hp
    have hq := log_nonneg_spec (hp q (by simp))
    have ha := add_spec h hq.1
    have := ih (XR.add lg (XR.log (.fin q))) ha.1 (fun x hx => hp x (by simp [hx]))
    have he : GoFloat.eq (XR.fin q) (GoFloat.ninf : XR) = false := rfl
    simp only [List.map_cons, logProdFrom, he, Bool.false_eq_true, if_false, XR.g_add, XR.g_log]
    refine ⟨this.1, ?_⟩
    rw [this.2, ha.2, hq.2]
    simp [mul_assoc]

theorem logSumMax_eq (p : List ℝ) : logSumMax (p.map XR.fin) =
    (p.map (fun q => XR.log (.fin q))).foldl (fun m v => if XR.lt m v then v else m) .ninf := by
  unfold logSumMax
  simp only [XR.g_ninf, XR.g_lt, XR.g_log]
  generalize XR.ninf = m
  induction p generalizing m with
  | nil => rfl
  | cons a p ih => simp only [List.map_cons, List.foldl_cons]; exact ih _

theorem logSum_spec {p : List ℝ} (hp : ∀ q ∈ p, 0 ≤ q) (hpos : p = [] ∨ 0 < p.sum) :
    IsLogProb (logSum (p.map XR.fin)) ∧ unlog (logSum (p.map XR.fin)) = p.sum := by
  rcases hpos with rfl | hpos
  · simp [logSum, logSumMax]
  · have hl : ∀ v ∈ p.map (fun q => XR.log (.fin q)), IsLogProb v := by
      intro v hv; simp only [List.mem_map] at hv; obtain ⟨q, hq, rfl⟩ := hv; exact (log_nonneg_spec (hp q hq)).1
    have hsum : ((p.map (fun q => XR.log (.fin q))).map unlog) = p := by
      rw [List.map_map]; conv_rhs => rw [← List.map_id p]
      exact List.map_congr_left (fun q hq => (log_nonneg_spec (hp q hq)).2)
    obtain ⟨h1, h2, h3, h4⟩ := foldl_max_spec (p.map (fun q => XR.log (.fin q))) .ninf trivial hl
    unfold logSum
    simp only [logSumMax_eq, XR.g_add, XR.g_log, XR.g_exp, XR.g_sub, XR.g_ofInt, Int.cast_zero]
    generalize (p.map (fun q => XR.log (.fin q))).foldl (fun m v => if XR.lt m v then v else m) .ninf = m at h1 h2 h3 h4
    rcases IsLogProb.cases h1 with rfl | ⟨r, rfl⟩
    · exfalso
      have : ((p.map (fun q => XR.log (.fin q))).map unlog).sum = 0 :=
        sum_eq_zero_of (fun v hv => le_antisymm (by simpa using h4 v hv) (unlog_nonneg v))
      rw [hsum] at this; linarith
    · have e := foldl_add_fin (fun v : XR => XR.exp (XR.sub (XR.log v) (.fin r))) (fun v => unlog (XR.log v) / Real.exp r) (p.map XR.fin)
        (fun v hv => by
          simp only [List.mem_map] at hv; obtain ⟨q, hq, rfl⟩ := hv
          exact exp_sub_spec (log_nonneg_spec (hp q hq)).1 r) 0
      rw [e]
      have e2 : ((p.map XR.fin).map (fun v => unlog (XR.log v) / Real.exp r)).sum = p.sum / Real.exp r := by
        rw [List.map_map]
        have : p.map ((fun v => unlog (XR.log v) / Real.exp r) ∘ XR.fin) = (p.map (fun q => XR.log (.fin q))).map (fun v => unlog v / Real.exp r) := by
          rw [List.map_map]; rfl
        rw [this, sum_div_const, hsum]
      rw [e2, zero_add]
      have hq : 0 < p.sum / Real.exp r := div_pos hpos (Real.exp_pos r)
      rw [XR.log_pos hq]
      refine ⟨trivial, ?_⟩
      simp only [XR.add_fin, unlog_fin, Real.exp_add, Real.exp_log hq]
      field_simp

theorem logSumPair_spec {p1 p2 : ℝ} (h1 : 0 < p1) (h2 : 0 ≤ p2) :
    IsLogProb (logSumPair (XR.fin p1) (XR.fin p2)) ∧ unlog (logSumPair (XR.fin p1) (XR.fin p2)) = p1 + p2 := by
  have hq : 0 < 1 + p2 / p1 := by have := div_nonneg h2 h1.le; linarith
  simp only [logSumPair, XR.g_add, XR.g_log, XR.g_div, XR.g_ofInt, Int.cast_one, XR.div_fin h1.ne', XR.add_fin, XR.log_pos h1, XR.log_pos hq]
  refine ⟨trivial, ?_⟩
  simp only [unlog_fin, Real.exp_add, Real.exp_log h1, Real.exp_log hq]
  field_simp

/-! ### LogSumLog -/

/-- `Σ s[i] * exp v[i]`. -/
noncomputable def signedSum (v : List XR) (s : List Int) : ℝ := ((v.zip s).map (fun p => (p.2 : ℝ) * unlog p.1)).sum

/-- The same without position `k`. -/
noncomputable def signedSumBut (k : Nat) : List XR → List Int → Nat → ℝ
  | v :: vs, s :: ss, i => (if i = k then 0 else (s : ℝ) * unlog v) + signedSumBut k vs ss (i + 1)
  | _, _, _ => 0

theorem signedSumBut_of_gt (k : Nat) : ∀ (v : List XR) (s : List Int) (i : Nat), k < i → signedSumBut k v s i = signedSum v s := by
  intro v
  induction v with
  | nil => intro s i _; simp [signedSumBut, signedSum]
  | cons a v ih =>
    intro s i h
    cases s with
    | nil => simp [signedSumBut, signedSum]
    | cons b s =>
      have := ih s (i + 1) (by omega)
      simp only [signedSumBut, this]
      simp [signedSum, show i ≠ k by omega]

theorem signedSumBut_add (k : Nat) : ∀ (v : List XR) (s : List Int) (i : Nat) (x : XR) (y : Int), i ≤ k → v[k - i]? = some x → s[k - i]? = some y →
    signedSum v s = signedSumBut k v s i + (y : ℝ) * unlog x := by
  intro v
  induction v with
  | nil => intro s i x y _ h; simp at h
  | cons a v ih =>
    intro s i x y h hv hs
    cases s with
    | nil => simp at hs
    | cons b s =>
      by_cases hik : i = k
      · subst hik
        simp at hv hs; subst hv hs
        simp only [signedSumBut, if_true, signedSumBut_of_gt i v s (i + 1) (by omega)]
        simp [signedSum, add_comm]
      · have e : k - i = (k - (i + 1)) + 1 := by omega
        rw [e] at hv hs
        simp only [List.getElem?_cons_succ] at hv hs
        have := ih s (i + 1) x y (by omega) hv hs
        simp only [signedSumBut, hik, if_false]
        have e2 : signedSum (a :: v) (b :: s) = (b : ℝ) * unlog a + signedSum v s := by simp [signedSum]
        rw [e2, this]; ring

theorem logSumLogSum_spec (p : ℝ) (k : Nat) (sk : Int) : ∀ (v : List XR) (s : List Int) (i : Nat) (r : ℝ), (∀ x ∈ v, IsLogProb x) →
    logSumLogSum (XR.fin p) k sk v s i (.fin r) = .fin (r + signedSumBut k v s i * sk / Real.exp p) := by
  intro v
  induction v with
  | nil => intro s i r _; simp [logSumLogSum, signedSumBut]
  | cons a v ih =>
    intro s i r hv
    cases s with
    | nil => simp [logSumLogSum, signedSumBut]
    | cons b s =>
      have ha := hv a (by simp)
      have hv' : ∀ x ∈ v, IsLogProb x := fun x hx => hv x (by simp [hx])
      simp only [logSumLogSum, XR.g_add, XR.g_mul, XR.g_exp, XR.g_sub, XR.g_ofInt, exp_sub_spec ha, XR.mul_fin, XR.add_fin]
      by_cases hik : i = k
      · simp only [hik, ne_eq, not_true_eq_false, false_and, if_false, signedSumBut, if_true, zero_add]
        exact ih s (k + 1) r hv'
      · by_cases hb : b = 0
        · simp only [hb, ne_eq, not_true_eq_false, and_false, if_false, signedSumBut, hik, Int.cast_zero, zero_mul, zero_add]
          exact ih s (i + 1) r hv'
        · simp only [hb, hik, ne_eq, not_false_eq_true, and_self, if_true, signedSumBut, if_false]
          rw [ih s (i + 1) _ hv']
          congr 1
          ring

theorem logSumLogMax_spec : ∀ (v : List XR) (s : List Int) (i : Nat) (m : XR) (im : Option Nat) (sm : Int),
    v.length ≤ s.length → (∀ x ∈ v, IsLogProb x) → IsLogProb m →
    ∃ m' im' sm', logSumLogMax v s i (m, im, sm) = some (m', im', sm') ∧ IsLogProb m' ∧
      ((m' = m ∧ im' = im ∧ sm' = sm ∧ (m = .ninf → signedSum v s = 0)) ∨
       ∃ k x, im' = some k ∧ m' = .fin x ∧ i ≤ k ∧ v[k - i]? = some m' ∧ s[k - i]? = some sm' ∧ sm' ≠ 0) := by
  intro v
  induction v with
  | nil => intro s i m im sm _ _ hm; exact ⟨m, im, sm, rfl, hm, Or.inl ⟨rfl, rfl, rfl, fun _ => by simp [signedSum]⟩⟩
  | cons a v ih =>
    intro s i m im sm hlen hv hm
    cases s with
    | nil => simp at hlen
    | cons b s =>
      have ha := hv a (by simp)
      have hv' : ∀ x ∈ v, IsLogProb x := fun x hx => hv x (by simp [hx])
      simp only [logSumLogMax, XR.g_lt]
      by_cases h : b ≠ 0 ∧ XR.lt m a = true
      · rw [if_pos h]
        obtain ⟨m', im', sm', h1, h2, h3⟩ := ih s (i + 1) a (some i) b (by simpa using hlen) hv' ha
        refine ⟨m', im', sm', h1, h2, Or.inr ?_⟩
        rcases h3 with ⟨rfl, rfl, rfl, _⟩ | ⟨k, x, rfl, rfl, hk, h4, h5, h6⟩
        · rcases IsLogProb.cases ha with rfl | ⟨x, rfl⟩
          · exact absurd h.2 (by cases m <;> simp [XR.lt])
          · exact ⟨i, x, rfl, rfl, le_refl _, by simp, by simp, h.1⟩
        · refine ⟨k, x, rfl, rfl, by omega, ?_, ?_, h6⟩
          · rw [show k - i = (k - (i + 1)) + 1 by omega]; simpa using h4
          · rw [show k - i = (k - (i + 1)) + 1 by omega]; simpa using h5
      · rw [if_neg h]
        obtain ⟨m', im', sm', h1, h2, h3⟩ := ih s (i + 1) m im sm (by simpa using hlen) hv' hm
        refine ⟨m', im', sm', h1, h2, ?_⟩
        rcases h3 with ⟨rfl, rfl, rfl, h4⟩ | ⟨k, x, rfl, rfl, hk, h4, h5, h6⟩
        · left
          refine ⟨rfl, rfl, rfl, ?_⟩
          rintro rfl
          have e2 : signedSum (a :: v) (b :: s) = (b : ℝ) * unlog a + signedSum v s := by simp [signedSum]
          rw [e2, h4 rfl]
          rcases IsLogProb.cases ha with rfl | ⟨x, rfl⟩
          · simp
          · have : b = 0 := by
              by_contra hb
              exact h ⟨hb, rfl⟩
            simp [this]
        · right
          refine ⟨k, x, rfl, rfl, by omega, ?_, ?_, h6⟩
          · rw [show k - i = (k - (i + 1)) + 1 by omega]; simpa using h4
          · rw [show k - i = (k - (i + 1)) + 1 by omega]; simpa using h5

theorem logSumLog_spec {v : List XR} {s : List Int} (hlen : v.length ≤ s.length) (hv : ∀ x ∈ v, IsLogProb x)
    (hs : ∀ x ∈ s, x = -1 ∨ x = 0 ∨ x = 1) :
    ∃ l sg, logSumLog v s = some (l, sg) ∧ IsLogProb l ∧ (sg = -1 ∨ sg = 0 ∨ sg = 1) ∧ (sg : ℝ) * unlog l = signedSum v s := by
  obtain ⟨m, im, sm, h1, h2, h3⟩ := logSumLogMax_spec v s 0 .ninf none 1 hlen hv trivial
  unfold logSumLog
  simp only [XR.g_ninf, h1]
  rcases h3 with ⟨_, rfl, _, h4⟩ | ⟨k, x, rfl, rfl, hk, h4, h5, h6⟩
  · exact ⟨_, _, rfl, trivial, by simp, by simp [h4 rfl]⟩
  · have hT := signedSumBut_add k v s 0 _ _ hk h4 h5
    have hsm : sm = -1 ∨ sm = 1 := by
      rcases hs sm (List.mem_of_getElem? h5) with h | h | h
      · exact Or.inl h
      · exact absurd h h6
      · exact Or.inr h
    have hsq : (sm : ℝ) * sm = 1 := by rcases hsm with h | h <;> simp [h]
    simp only [XR.g_ofInt, Int.cast_zero, logSumLogSum_spec x k sm v s 0 0 hv, zero_add, XR.g_lt]
    generalize hr : signedSumBut k v s 0 * (sm : ℝ) / Real.exp x = r
    have hE : signedSumBut k v s 0 = sm * r * Real.exp x := by
      rw [← hr]
      have : (sm : ℝ) * (signedSumBut k v s 0 * sm / Real.exp x) * Real.exp x = ((sm : ℝ) * sm) * signedSumBut k v s 0 := by field_simp
      rw [this, hsq, one_mul]
    simp only [unlog_fin] at hT
    by_cases hlt : r < -1
    · have : XR.lt (.fin r) (.fin ((-1 : Int) : ℝ)) = true := by simp [hlt]
      simp only [this, if_true]
      have hp : 0 < -1 - r := by linarith
      refine ⟨_, _, rfl, ?_, ?_, ?_⟩
      · simp [XR.log_pos hp]
      · rcases hsm with h | h <;> simp [h]
      · simp only [XR.g_add, XR.g_log, XR.g_sub, XR.sub_fin, Int.cast_neg, Int.cast_one, XR.log_pos hp, XR.add_fin, unlog_fin, Real.exp_add, Real.exp_log hp]
        rw [hT, hE]; ring
    · have : ¬ XR.lt (.fin r) (.fin ((-1 : Int) : ℝ)) = true := by simp; linarith
      simp only [this, Bool.false_eq_true, if_false]
      have hp : 0 ≤ 1 + r := by linarith
      have hl := log_nonneg_spec hp
      have ha := add_spec (x := .fin x) trivial hl.1
      refine ⟨_, _, rfl, ha.1, ?_, ?_⟩
      · rcases hsm with h | h <;> simp [h]
      · simp only [XR.g_add, XR.g_log1p, XR.add_fin]
        rw [ha.2, hl.2, hT, hE, unlog_fin]; ring

end Gospn
