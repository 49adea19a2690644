import Verif.Proofs.RoundMax
import Verif.Proofs.MapStore
/-
Error analysis of the state of `StoreMAP`, whatever the tie breaking.
-/
set_option linter.unusedSectionVars false
set_option linter.unusedSimpArgs false

namespace Gospn
open Spec
variable {ι F : Type} [GoFloat F] {val : F → XR} {B ε : ℝ}

theorem tiedChildren_any {α : Type} (l : List (α × F)) : ∀ (mv : List α) (m : F),
    (tiedChildren l (mv, m)).2 = (l.map Prod.snd).foldl (fun m u => if GoFloat.lt m u then u else m) m ∧
    (∀ c ∈ (tiedChildren l (mv, m)).1, (c ∈ mv ∧ (tiedChildren l (mv, m)).2 = m) ∨ ∃ u, (c, u) ∈ l ∧ (u = (tiedChildren l (mv, m)).2 ∨ GoFloat.eq u (tiedChildren l (mv, m)).2 = true)) ∧
    (mv ≠ [] ∨ (tiedChildren l (mv, m)).2 ≠ m → (tiedChildren l (mv, m)).1 ≠ []) := by
  induction l with
  | nil =>
    intro mv m
    refine ⟨rfl, fun c hc => Or.inl ⟨hc, rfl⟩, fun h => ?_⟩
    rcases h with h | h
    · exact h
    · exact absurd rfl h
  | cons p l ih =>
    intro mv m
    obtain ⟨c, u⟩ := p
    simp only [tiedChildren, List.map_cons, List.foldl_cons]
    by_cases h1 : GoFloat.lt m u = true
    · obtain ⟨e1, e2, e3⟩ := ih [c] u
      simp only [h1, if_true]
      refine ⟨e1, ?_, fun _ => e3 (Or.inl (by simp))⟩
      intro d hd
      rcases e2 d hd with ⟨h2, h3⟩ | ⟨x, h2, h3⟩
      · simp at h2; subst h2; exact Or.inr ⟨u, by simp, Or.inl h3.symm⟩
      · exact Or.inr ⟨x, by simp [h2], h3⟩
    · simp only [h1, if_false, Bool.false_eq_true]
      by_cases h2 : GoFloat.eq u m = true
      · simp only [h2, if_true]
        obtain ⟨e1, e2, e3⟩ := ih (mv ++ [c]) m
        refine ⟨e1, ?_, fun _ => e3 (Or.inl (by simp))⟩
        intro d hd
        rcases e2 d hd with ⟨g2, g3⟩ | ⟨x, g2, g3⟩
        · rcases List.mem_append.1 g2 with g2 | g2
          · exact Or.inl ⟨g2, g3⟩
          · simp at g2; subst g2; exact Or.inr ⟨u, by simp, Or.inr (by rw [g3]; exact h2)⟩
        · exact Or.inr ⟨x, by simp [g2], g3⟩
      · simp only [h2, if_false, Bool.false_eq_true]
        obtain ⟨e1, e2, e3⟩ := ih mv m
        refine ⟨e1, ?_, e3⟩
        intro d hd
        rcases e2 d hd with g2 | ⟨x, g2, g3⟩
        · exact Or.inl g2
        · exact Or.inr ⟨x, by simp [g2], g3⟩

section
variable [Fintype ι] {N : Net ι F} {M : Net ι XR} {S : ι} {I : VarSet} {dom : Int → Set Int} {K : ℕ} {L : ℝ} {cost : ι → ℕ} {get : ι → F} {pick : ι → Nat → Nat}

/-- The children of a product of positive MAP value have positive values, whose product is nearly that of the node. -/
theorem prod_step (hac : Acyclic N.ch) (hR : RoundsOn val (L * (cost S + 1) + 4) ε) (hL : 0 ≤ L) (hLK : Real.log K ≤ L) (hK : 1 ≤ K) (hs : StoresNet val N S K L ε (MaxWithin val I L (2 * ε)) M)
    (hcost : Cost N S cost) (hsmall : 3 * ε * cost S ≤ 1) (hcS : 1 ≤ cost S) {n : ι} (hreach : Reach N.ch S n) {cs : List ι} (hk : N.kind n = .product cs)
    (hget : ∀ c ∈ cs, N.max I c = some (get c)) {v : F} {a : ℝ} (ha : N.max I n = some v) (hva : val v = .fin a) :
    (∀ c ∈ cs, ∃ b, val (get c) = .fin b) ∧ Real.exp a * Real.exp (-(cs.length * ε)) ≤ (cs.map fun c => unlog (val (get c))).prod := by
  have hε := hR.eps_nonneg
  have hmax := max_close hac hR hL hLK hK hs hcost hsmall hcS
  have hc0 := hcost n hreach
  have hcn : (cost n : ℝ) ≤ cost S := by exact_mod_cast hcost.le hreach
  have hAn : 3 * ε * cost n ≤ 1 := le_trans (mul_le_mul_of_nonneg_left hcn (by positivity)) hsmall
  have hLn : L * cost n ≤ L * cost S := mul_le_mul_of_nonneg_left hcn hL
  have hcs : N.ch n = cs := by simp [Net.ch, hk]
  have hcr : ∀ c ∈ cs, Reach N.ch S c := fun c hc => Relation.ReflTransGen.tail hreach (hcs ▸ hc : c ∈ N.ch n)
  simp only [hk] at hc0
  have hmc : ∀ c ∈ cs, ∃ y, Within (3 * ε * cost c) (val (get c)) y ∧ absVal y ≤ L * cost c := by
    intro c hc
    obtain ⟨v', y, h1, h2, h3, h4⟩ := hmax c (hcr c hc)
    rw [hget c hc] at h1
    cases h1
    exact ⟨y, h3, h4⟩
  have : Nonempty XR := ⟨.ninf⟩
  choose! y hgy hya using hmc
  have hav : v = prodCompute (cs.map get) := by
    rw [Net.max_unfold hac] at ha
    simp only [Net.maxStep, hk, mapM_eq_some hget, Option.map_some, Option.some.injEq] at ha
    exact ha.symm
  have hc0' : (cs.map fun c => (cost c : ℝ)).sum + cs.length ≤ cost n := by
    have h1 : ((cs.map fun c => cost c + 1).sum : ℝ) ≤ (cost n : ℝ) := by exact_mod_cast hc0
    have h2 : ∀ l : List ι, ((l.map fun c => cost c + 1).sum : ℝ) = (l.map fun c => (cost c : ℝ)).sum + l.length := by
      intro l
      induction l with
      | nil => simp
      | cons a l ih =>
        simp only [List.map_cons, List.sum_cons, List.length_cons]
        push_cast at ih ⊢
        rw [ih]
        ring
    rw [h2] at h1
    exact h1
  have hsum0 : 0 ≤ (cs.map fun c => (cost c : ℝ)).sum := List.sum_nonneg fun x hx => by
    obtain ⟨c, _, rfl⟩ := List.mem_map.1 hx
    positivity
  have hlen0 : (0 : ℝ) ≤ cs.length := Nat.cast_nonneg _
  have habs : ∀ c ∈ cs, absVal (val (get c)) ≤ (L + 3 * ε) * cost c := by
    intro c hc
    have h1 := hgy c hc
    have h2 := hya c hc
    rcases h1.cases with ⟨e1, e2⟩ | ⟨p, q, e1, e2, hpq⟩
    · rw [e1]
      simp only [absVal]
      positivity
    · rw [e1]
      rw [e2] at h2
      simp only [absVal] at h2 ⊢
      have := abs_sub_abs_le_abs_sub p q
      nlinarith
  have hpc := prod_close hR (cs.map get) ((cs.map get).map val) (cs.map fun _ => (0 : ℝ)) (GoFloat.ofInt 0) (.fin 0) 0 0 (by rw [hR.zero]; simp [Within]) (by simp [absVal])
    (by simp) (by simp)
    (fun i v z e h1 h2 h3 => by
      simp only [List.getElem?_map, Option.map_eq_some_iff] at h1 h2 h3
      obtain ⟨c, hc, rfl⟩ := h1
      obtain ⟨_, ⟨c', hc', rfl⟩, rfl⟩ := h2
      obtain ⟨c'', hc'', rfl⟩ := h3
      rw [hc] at hc'
      cases hc'
      refine ⟨?_, le_rfl⟩
      have := (hgy c (List.mem_of_getElem? hc)).isLogProb.1
      rcases IsLogProb.cases this with h | ⟨r, h⟩ <;> rw [h] <;> simp [Within])
    (by
      have h1 : (((cs.map get).map val).map absVal).sum ≤ (L + 3 * ε) * (cs.map fun c => (cost c : ℝ)).sum := by
        rw [← List.sum_map_mul_left, List.map_map, List.map_map]
        exact List.sum_le_sum fun c hc => habs c hc
      have h2 : (cs.map fun _ => (0 : ℝ)).sum = 0 := by simp
      rw [h2, List.length_map]
      have h3 : L * (cs.map fun c => (cost c : ℝ)).sum ≤ L * cost n := mul_le_mul_of_nonneg_left (by linarith) hL
      have h4 : 3 * ε * ((cs.map fun c => (cost c : ℝ)).sum + cs.length) ≤ 3 * ε * cost n := mul_le_mul_of_nonneg_left hc0' (by positivity)
      have h5 : 0 ≤ (cs.length : ℝ) * ε := by positivity
      nlinarith) le_rfl le_rfl
  have h2 : (cs.map fun _ => (0 : ℝ)).sum = 0 := by simp
  rw [h2, List.length_map, zero_add, zero_add] at hpc
  have hpv : val v = val ((cs.map get).foldl GoFloat.add (GoFloat.ofInt 0)) := by rw [hav]; rfl
  rw [← hpv] at hpc
  obtain ⟨ps1, ps2⟩ := prodCompute_spec ((cs.map get).map val) (fun z hz => by
    obtain ⟨_, hz', rfl⟩ := List.mem_map.1 hz
    obtain ⟨c, hc, rfl⟩ := List.mem_map.1 hz'
    exact (hgy c hc).isLogProb.1)
  have hpe : ((cs.map get).map val).foldl XR.add (.fin 0) = prodCompute ((cs.map get).map val) := by
    unfold prodCompute
    simp only [XR.g_ofInt, Int.cast_zero]
    rfl
  rw [hpe] at hpc
  have hup := (close_unlog hpc).1
  rw [ps2, hva, unlog_fin] at hup
  have hfin : ∀ c ∈ cs, ∃ b, val (get c) = .fin b := by
    intro c hc
    refine isLogProb_fin_of (hgy c hc).isLogProb.1 fun h0 => ?_
    have : (((cs.map get).map val).map unlog).prod = 0 := List.prod_eq_zero (by
      rw [← h0]
      exact List.mem_map_of_mem (List.mem_map_of_mem (List.mem_map_of_mem hc)))
    rw [this, mul_zero] at hup
    exact absurd hup (not_le.2 (Real.exp_pos a))
  refine ⟨hfin, ?_⟩
  have he : (cs.map fun c => unlog (val (get c))).prod = (((cs.map get).map val).map unlog).prod := by
    rw [List.map_map, List.map_map]
    rfl
  rw [he]
  have := mul_le_mul_of_nonneg_right hup (Real.exp_pos (-(cs.length * ε))).le
  have e : Real.exp (cs.length * ε) * (((cs.map get).map val).map unlog).prod * Real.exp (-(cs.length * ε)) = (((cs.map get).map val).map unlog).prod := by
    rw [mul_right_comm, ← Real.exp_add]
    simp
  rwa [e] at this

/-- A sum of positive MAP value goes on with a child that nearly attains it. -/
theorem sum_step (hac : Acyclic N.ch) (hR : RoundsOn val (L * (cost S + 1) + 4) ε) (heq : ∀ a b, GoFloat.eq a b = XR.eq (val a) (val b)) (hL : 0 ≤ L) (hLK : Real.log K ≤ L) (hK : 1 ≤ K)
    (hs : StoresNet val N S K L ε (MaxWithin val I L (2 * ε)) M) (hcost : Cost N S cost) (hsmall : 3 * ε * cost S ≤ 1) (hcS : 1 ≤ cost S) {n : ι} (hreach : Reach N.ch S n)
    {cs : List ι} {w : List F} (hk : N.kind n = .sum cs w) (hget : ∀ c ∈ cs, N.max I c = some (get c)) {v : F} {a : ℝ} (ha : N.max I n = some v) (hva : val v = .fin a) :
    ∃ (q : List XR) (c : ι) (i : ℕ) (s b : ℝ), M.kind n = .sum cs q ∧ N.mapChoice get pick n = some c ∧ cs[i]? = some c ∧ q[i]? = some (.fin s) ∧ 0 ≤ s ∧ val (get c) = .fin b ∧
      Real.exp a ≤ Real.exp (3 * ε) * (s * Real.exp b) := by
  have hε := hR.eps_nonneg
  have hmax := max_close hac hR hL hLK hK hs hcost hsmall hcS
  have hc0 := hcost n hreach
  have hn2 := hs.2 n hreach
  have hK1 : (1 : ℝ) ≤ K := by exact_mod_cast hK
  have hlK := Real.log_nonneg hK1
  have hcn : (cost n : ℝ) ≤ cost S := by exact_mod_cast hcost.le hreach
  have hAn : 3 * ε * cost n ≤ 1 := le_trans (mul_le_mul_of_nonneg_left hcn (by positivity)) hsmall
  have hLn : L * cost n ≤ L * cost S := mul_le_mul_of_nonneg_left hcn hL
  have hLS : 0 ≤ L * cost S := by positivity
  cases hm : M.kind n with
  | leaf ds => rw [hk, hm] at hn2; exact absurd hn2 id
  | product ds => rw [hk, hm] at hn2; exact absurd hn2 id
  | sum ds q =>
  rw [hk, hm] at hn2
  obtain ⟨rfl, hne, hlenK, hlenw, hwq⟩ := hn2
  have hcs : N.ch n = cs := by simp [Net.ch, hk]
  have hcr : ∀ c ∈ cs, Reach N.ch S c := fun c hc => Relation.ReflTransGen.tail hreach (hcs ▸ hc : c ∈ N.ch n)
  simp only [hk] at hc0
  have hmc : ∀ c ∈ cs, ∃ y, Within (3 * ε * cost c) (val (get c)) y ∧ absVal y ≤ L * cost c := by
    intro c hc
    obtain ⟨v', y, h1, h2, h3, h4⟩ := hmax c (hcr c hc)
    rw [hget c hc] at h1
    cases h1
    exact ⟨y, h3, h4⟩
  have : Nonempty XR := ⟨.ninf⟩
  choose! y hgy hya using hmc
  rw [Net.max_unfold hac] at ha
  simp only [Net.maxStep, hk, mapM_eq_some hget, Option.bind_some, Option.map_eq_some_iff] at ha
  obtain ⟨us, hus, hum⟩ := ha
  have hlen := weightedMax_length _ _ _ hus
  rw [List.length_map] at hlen
  have hzip : (cs.zip us).map Prod.snd = us := by rw [List.map_snd_zip]; omega
  obtain ⟨t1, t2, t3⟩ := tiedChildren_any (cs.zip us) [] (GoFloat.ninf : F)
  rw [hzip] at t1
  have t1' : (tiedChildren (cs.zip us) ([], GoFloat.ninf)).2 = v := t1.trans hum
  have hne' := t3 (Or.inr (by
    rw [t1']
    intro h0
    rw [h0, hR.ninf] at hva
    cases hva))
  obtain ⟨mv, hmv⟩ : ∃ mv, mv = (tiedChildren (cs.zip us) ([], GoFloat.ninf)).1 := ⟨_, rfl⟩
  rw [← hmv] at hne' t2
  have hlen0 : mv.length ≠ 0 := fun h0 => hne' (List.length_eq_zero_iff.1 h0)
  have hlt : pick n mv.length % mv.length < mv.length := Nat.mod_lt _ (Nat.pos_of_ne_zero hlen0)
  obtain ⟨c, hc0'⟩ : ∃ c, mv[pick n mv.length % mv.length]? = some c := ⟨_, List.getElem?_eq_getElem hlt⟩
  obtain ⟨u, hmem, hu0⟩ := (t2 c (List.mem_of_getElem? hc0')).resolve_left (by simp)
  rw [t1'] at hu0
  have huv : val u = .fin a := by
    rcases hu0 with rfl | h
    · exact hva
    · rw [heq, hva] at h
      cases hvu : val u with
      | fin b => rw [hvu] at h; simp [XR.eq] at h; rw [h]
      | nan => rw [hvu] at h; simp [XR.eq] at h
      | ninf => rw [hvu] at h; simp [XR.eq] at h
      | pinf => rw [hvu] at h; simp [XR.eq] at h
  obtain ⟨i, hi, hu⟩ := mem_zip_index hmem
  have hc : c ∈ cs := List.mem_of_getElem? hi
  obtain ⟨gc, x, hgc, hx, rfl⟩ := weightedMax_index _ _ _ hus i u hu
  have hgc' : gc = get c := by
    rw [List.getElem?_map, hi] at hgc
    simpa using hgc.symm
  subst hgc'
  obtain ⟨q0, hq0, hst⟩ := forall₂_index hwq hx
  have hcc : (cost c : ℝ) + 1 ≤ cost n := by exact_mod_cast hc0 c hc
  have habs : absVal (val (get c)) ≤ (L + 3 * ε) * cost c := by
    have h1 := hgy c hc
    have h2 := hya c hc
    rcases h1.cases with ⟨e1, e2⟩ | ⟨p, r, e1, e2, hpq⟩
    · rw [e1]
      simp only [absVal]
      positivity
    · rw [e1]
      rw [e2] at h2
      simp only [absVal] at h2 ⊢
      have := abs_sub_abs_le_abs_sub p r
      nlinarith
  have hLc : L * (cost c + 1) ≤ L * cost n := mul_le_mul_of_nonneg_left hcc hL
  have hεc : 3 * ε * (cost c + 1) ≤ 3 * ε * cost n := mul_le_mul_of_nonneg_left hcc (by positivity)
  have hself : Within 0 (val (get c)) (val (get c)) := by
    rcases IsLogProb.cases (hgy c hc).isLogProb.1 with h | ⟨r, h⟩ <;> rw [h] <;> simp [Within]
  have hone := weightedMax_one hR hself hst (by nlinarith) (by nlinarith)
  rw [huv, zero_add] at hone
  obtain ⟨_, s, _, rfl, _, hs0, _, _⟩ := hst
  have hup := (close_unlog hone).1
  rw [(add_spec (log_nonneg_spec hs0).1 (hgy c hc).isLogProb.1).2, (log_nonneg_spec hs0).2, unlog_fin] at hup
  obtain ⟨b, hb⟩ := isLogProb_fin_of (hgy c hc).isLogProb.1 fun hz => by
    rw [hz, mul_zero, mul_zero] at hup
    exact absurd hup (not_le.2 (Real.exp_pos a))
  rw [hb, unlog_fin] at hup
  refine ⟨q, c, i, s, b, rfl, ?_, hi, hq0, hs0, hb, by rw [show 3 * ε = ε + 2 * ε by ring]; exact hup⟩
  simp only [Net.mapChoice, hk, hus, Option.bind_some]
  rw [← hmv, if_neg hlen0, hc0']

variable [DecidableEq ι]

/-- The state of `StoreMAP` has nearly the probability that was computed for it, whatever the tie breaking. -/
theorem storeMAP_close (hac : Acyclic N.ch) (hR : RoundsOn val (L * (cost S + 1) + 4) ε) (heq : ∀ a b, GoFloat.eq a b = XR.eq (val a) (val b)) (hL : 0 ≤ L) (hLK : Real.log K ≤ L) (hK : 1 ≤ K)
    (hs : StoresNet val N S K L ε (fun l m => MaxWithin val I L (2 * ε) l m ∧ ModeWithin val dom I (2 * ε) l m) M) (hcost : Cost N S cost)
    (hsmall : 3 * ε * cost S ≤ 1) (hcS : 1 ≤ cost S) (hcomp : IsComplete M S) (hdec : IsDecomposable M S) (hw : NonnegWeights M S)
    (hl : ∀ n l, Reach M.ch S n → M.kind n = .leaf l → MaxLeaf dom l) (hget : ∀ n, Reach N.ch S n → N.max I n = some (get n)) {a : ℝ} (ha : val (get S) = .fin a) :
    ∃ J, work (N.mapStateStep I get pick) false S (fun _ => none) = some J ∧ (∀ v, (∃ x, J v = some x) ↔ InScope M S v) ∧
      (∀ v x, InScope M S v → I v = some x → J v = some x) ∧ (∀ v x, J v = some x → x ∈ dom v) ∧ Real.exp (a - 3 * ε * cost S) ≤ M.pmax J S := by
  have hε := hR.eps_nonneg
  have hch : M.ch = N.ch := funext hs.1
  have hac' : Acyclic M.ch := by rw [hch]; exact hac
  have hsm : StoresNet val N S K L ε (MaxWithin val I L (2 * ε)) M := by
    refine ⟨hs.1, fun n hn => ?_⟩
    have h2 := hs.2 n hn
    revert h2
    cases N.kind n <;> cases M.kind n <;> first | exact id | exact fun h => h.1
  have hscope := fun {n : ι} (hn : Reach N.ch S n) v => storesNet_scope hs (fun l m h => h.2.1) hn v
  have hchild : ∀ {n c : ι} {cs : List ι}, Reach N.ch S n → N.ch n = cs → c ∈ cs → Reach N.ch S c := fun hn he hc => Relation.ReflTransGen.tail hn (he ▸ hc : _ ∈ N.ch _)
  have hdecN : IsDecomposable N S := by
    intro n hn cs hk
    have hn2 := hs.2 n hn
    cases hm : M.kind n with
    | leaf ds => rw [hk, hm] at hn2; exact absurd hn2 id
    | sum ds q => rw [hk, hm] at hn2; exact absurd hn2 id
    | product ds =>
    rw [hk, hm] at hn2
    obtain rfl := hn2
    have := hdec n (by rw [hch]; exact hn) cs hm
    refine this.imp_of_mem ?_
    intro c d hc hd hcd v hv
    exact hcd v ⟨(hscope (hchild hn (by simp [Net.ch, hk]) hc) v).2 hv.1, (hscope (hchild hn (by simp [Net.ch, hk]) hd) v).2 hv.2⟩
  have hsub : ∀ {n : ι}, Reach (N.mapCand get pick) S n → Reach N.ch S n := fun h => Net.mapReach_sub h
  -- every node the search comes to has positive value
  have hfin : ∀ n, Reach (N.mapCand get pick) S n → ∃ b, val (get n) = .fin b := by
    intro n hn
    induction hn with
    | refl => exact ⟨a, ha⟩
    | tail hr hc ih =>
      rename_i u c
      obtain ⟨b, hb⟩ := ih
      have hru : Reach N.ch S u := hsub hr
      have hc : c ∈ N.mapCand get pick u := hc
      unfold Net.mapCand at hc
      cases hk : N.kind u with
      | leaf l => simp [hk] at hc
      | sum cs w =>
        have hcg : ∀ c ∈ cs, N.max I c = some (get c) := fun c hc => hget c (hchild hru (by simp [Net.ch, hk]) hc)
        obtain ⟨q, d, i, s, b', h1, h2, h3, h4, h5, h6, h7⟩ := sum_step (pick := pick) hac hR heq hL hLK hK hsm hcost hsmall hcS hru hk hcg (hget u hru) hb
        simp only [hk, Option.mem_toList, h2] at hc
        simp at hc; subst hc; exact ⟨b', h6⟩
      | product cs =>
        simp only [hk] at hc
        exact (prod_step hac hR hL hLK hK hsm hcost hsmall hcS hru hk (fun c hc => hget c (hchild hru (by simp [Net.ch, hk]) hc)) (hget u hru) hb).1 c hc
  have hol := workOrder_lists (N.mapCand get pick) false S
  -- the leaves
  have hleaf : ∀ n, Reach (N.mapCand get pick) S n → ∃ x, ∀ l, N.kind n = .leaf l → l.argMax I = some (VarSet.single (leafVar l) x, get n) ∧ (∀ y, I (leafVar l) = some y → y = x) ∧ x ∈ dom (leafVar l) ∧
      ∀ J : VarSet, J (leafVar l) = some x → ∀ b, val (get n) = .fin b → Real.exp (b - 3 * ε * cost n) ≤ M.pmax J n := by
    intro n hn
    have hr := hsub hn
    cases hk : N.kind n with
    | leaf l =>
      have hn2 := hs.2 n hr
      cases hm : M.kind n with
      | sum ds q => rw [hk, hm] at hn2; exact absurd hn2 id
      | product ds => rw [hk, hm] at hn2; exact absurd hn2 id
      | leaf m =>
      rw [hk, hm] at hn2
      obtain ⟨_, hvar, hmode⟩ := hn2
      obtain ⟨b, hb⟩ := hfin n hn
      have hmx := hget n hr
      rw [Net.max_unfold hac] at hmx
      have hc0 := hcost n hr
      simp only [Net.maxStep, hk] at hmx hc0
      have hc1 : (1 : ℝ) ≤ cost n := by exact_mod_cast hc0
      obtain ⟨x, h1, h2, h3, y, h4, h5⟩ := hmode (get n) b hmx hb
      refine ⟨x, fun l' hl' => ?_⟩
      cases hl'
      refine ⟨h1, h3, h2, fun J hJ b' hb' => ?_⟩
      rw [hb] at hb'
      cases hb'
      have e : M.max J n = some y := by
        rw [← h4, Net.max_unfold hac']
        simp only [Net.maxStep, hm]
        have hJ' : J (leafVar m) = (VarSet.single (leafVar l) x) (leafVar m) := by rw [hvar, hJ]; simp [VarSet.single]
        cases m <;> simp only [Leaf.max, leafVar] at hJ' ⊢ <;> rw [hJ']
      rw [Net.pmax_some e]
      rw [hb] at h5
      rcases h5.cases with ⟨h, _⟩ | ⟨_, b', h, rfl, hab⟩
      · cases h
      · cases h
        have := (abs_le.1 hab).2
        exact Real.exp_le_exp.2 (by nlinarith)
    | _ => exact ⟨0, fun l' hl' => by cases hl'⟩
  choose! x hx using hleaf
  have hchoice : ∀ n, Reach (N.mapCand get pick) S n → ∀ cs w, N.kind n = .sum cs w → ∃ c, N.mapChoice get pick n = some c ∧ c ∈ cs := by
    intro n hn cs w hk
    obtain ⟨b, hb⟩ := hfin n hn
    obtain ⟨q, c, i, s, b', h1, h2, h3, _⟩ := sum_step (pick := pick) hac hR heq hL hLK hK hsm hcost hsmall hcS (hsub hn) hk (fun c hc => hget c (hchild (hsub hn) (by simp [Net.ch, hk]) hc)) (hget n (hsub hn)) hb
    exact ⟨c, h2, List.mem_of_getElem? h3⟩
  obtain ⟨J, e1, e2, e3⟩ := mapUpd_fold (N := N) (I := I) (get := get) (pick := pick) x (workOrder (N.mapCand get pick) false S) (fun _ => none)
    (fun n hn lf hk => ⟨_, (hx n ((hol.2 n).1 hn) lf hk).1⟩)
    (fun n hn cs w hk => by
      obtain ⟨c, h1, _⟩ := hchoice n ((hol.2 n).1 hn) cs w hk
      exact ⟨c, h1⟩)
    (fun m hm n hn lm ln h1 h2 h3 => Net.leaf_unique hac hdecN S Relation.ReflTransGen.refl m n lm ln ((hol.2 m).1 hm) ((hol.2 n).1 hn) h1 h2 h3)
  have hsome : ∀ v y, J v = some y → ∃ n l, Reach (N.mapCand get pick) S n ∧ N.kind n = .leaf l ∧ leafVar l = v ∧ y = x n := by
    intro v y hy
    by_contra hcon
    have : J v = none := e3 v (fun n hn lf hlf hv => hcon ⟨n, lf, (hol.2 n).1 hn, hlf, hv, by
      have := e2 n hn lf hlf; rw [hv, hy] at this; exact Option.some.inj this⟩)
    rw [hy] at this; cases this
  have hdomJ : ∀ v y, J v = some y → y ∈ dom v := by
    intro v y hy
    obtain ⟨n, l, h1, h2, rfl, rfl⟩ := hsome v y hy
    exact (hx n h1 l h2).2.2.1
  have hexists : ∀ v n, Reach (N.mapCand get pick) S n → InScope M n v → ∃ m l, Reach (N.mapCand get pick) n m ∧ N.kind m = .leaf l ∧ leafVar l = v := by
    obtain ⟨rank, hr⟩ := id hac
    intro v n
    induction hn : rank n using Nat.strong_induction_on generalizing n with
    | _ k ih =>
      intro hreach hsv
      have hru := hsub hreach
      rcases InScope.inv hsv with ⟨l, hl', hv⟩ | ⟨d, hd, hsd⟩
      · have hn2 := hs.2 n hru
        cases hk : N.kind n with
        | sum ds q => rw [hk, hl'] at hn2; exact absurd hn2 id
        | product ds => rw [hk, hl'] at hn2; exact absurd hn2 id
        | leaf m =>
          rw [hk, hl'] at hn2
          exact ⟨n, m, Relation.ReflTransGen.refl, hk, by rw [← hn2.2.1]; exact hv⟩
      · have : ∃ c ∈ N.mapCand get pick n, InScope M c v := by
          rw [hch] at hd
          cases hk : N.kind n with
          | leaf l => simp [Net.ch, hk] at hd
          | product cs => simp only [Net.ch, hk] at hd; exact ⟨d, by simp [Net.mapCand, hk, hd], hsd⟩
          | sum cs w =>
            simp only [Net.ch, hk] at hd
            obtain ⟨b, hb⟩ := hfin n hreach
            obtain ⟨q, c, i, s, b', h1, h2, h3, _⟩ := sum_step (pick := pick) hac hR heq hL hLK hK hsm hcost hsmall hcS hru hk (fun c hc => hget c (hchild hru (by simp [Net.ch, hk]) hc)) (hget n hru) hb
            exact ⟨c, by simp [Net.mapCand, hk, h2], hcomp n (by rw [hch]; exact hru) cs _ h1 d hd c (List.mem_of_getElem? h3) v hsd⟩
        obtain ⟨c, hc, hsc⟩ := this
        have hcn : c ∈ N.ch n := Net.mapCand_sub N get pick (fun n c cs w hk h => Net.mapChoice_mem hk h) hc
        obtain ⟨m, l, h1, h2, h3⟩ := ih (rank c) (by rw [← hn]; exact hr n c hcn) c rfl (Relation.ReflTransGen.tail hreach hc) hsc
        exact ⟨m, l, Relation.ReflTransGen.head hc h1, h2, h3⟩
  have hJ : InDomain M S dom J := fun v _ y hy => hdomJ v y hy
  refine ⟨J, ?_, ?_, ?_, hdomJ, ?_⟩
  · rw [work_static _ (N.mapUpd I get pick) (N.mapCand get pick) (fun M n => Net.mapStateStep_eq N I get pick M n)]; exact e1
  · intro v
    constructor
    · rintro ⟨y, hy⟩
      obtain ⟨n, l, h1, h2, h3, _⟩ := hsome v y hy
      exact (hscope Relation.ReflTransGen.refl v).2 ⟨n, l, hsub h1, h2, h3⟩
    · intro hsv
      obtain ⟨m, l, h1, h2, rfl⟩ := hexists v S Relation.ReflTransGen.refl hsv
      exact ⟨_, e2 m ((hol.2 m).2 h1) l h2⟩
  · intro v y hsv hy
    obtain ⟨m, l, h1, h2, rfl⟩ := hexists v S Relation.ReflTransGen.refl hsv
    rw [(hx m h1 l h2).2.1 y hy]; exact e2 m ((hol.2 m).2 h1) l h2
  · have key : ∀ n, Reach (N.mapCand get pick) S n → ∀ b, val (get n) = .fin b → Real.exp (b - 3 * ε * cost n) ≤ M.pmax J n := by
      obtain ⟨rank, hr⟩ := id hac
      intro n
      induction hn : rank n using Nat.strong_induction_on generalizing n with
      | _ k ih =>
        intro hreach b hb
        have hru := hsub hreach
        have hru' : Reach M.ch S n := by rw [hch]; exact hru
        have ihc : ∀ c ∈ N.mapCand get pick n, ∀ b, val (get c) = .fin b → Real.exp (b - 3 * ε * cost c) ≤ M.pmax J c := fun c hc =>
          ih (rank c) (by rw [← hn]; exact hr n c (Net.mapCand_sub N get pick (fun n c cs w hk h => Net.mapChoice_mem hk h) hc)) c rfl
            (Relation.ReflTransGen.tail hreach hc)
        have hn2 := hs.2 n hru
        have hc0 := hcost n hru
        cases hk : N.kind n with
        | leaf l => exact (hx n hreach l hk).2.2.2 J (e2 n ((hol.2 n).2 hreach) l hk) b hb
        | product cs =>
          cases hm : M.kind n with
          | leaf ds => rw [hk, hm] at hn2; exact absurd hn2 id
          | sum ds q => rw [hk, hm] at hn2; exact absurd hn2 id
          | product ds =>
          rw [hk, hm] at hn2
          obtain rfl := hn2
          simp only [Net.mapCand, hk] at ihc
          simp only [hk] at hc0
          obtain ⟨p1, p2⟩ := prod_step hac hR hL hLK hK hsm hcost hsmall hcS hru hk (fun c hc => hget c (hchild hru (by simp [Net.ch, hk]) hc)) (hget n hru) hb
          rw [Net.max_product hac' hw (leaves_max hl hJ) hru' hm]
          have hlow : ∀ l : List ι, (∀ c ∈ l, c ∈ cs) →
              (l.map fun c => unlog (val (get c))).prod * Real.exp (-(3 * ε * (l.map fun c => (cost c : ℝ)).sum)) ≤ (l.map fun c => M.pmax J c).prod := by
            intro l
            induction l with
            | nil => intro _; simp
            | cons c l ihl =>
              intro hl'
              have h1 := ihl fun d hd => hl' d (by simp [hd])
              obtain ⟨bc, hbc⟩ := p1 c (hl' c (by simp))
              have h2 := ihc c (hl' c (by simp)) bc hbc
              simp only [List.map_cons, List.prod_cons, List.sum_cons]
              have e : Real.exp (-(3 * ε * ((cost c : ℝ) + (l.map fun c => (cost c : ℝ)).sum))) =
                  Real.exp (-(3 * ε * cost c)) * Real.exp (-(3 * ε * (l.map fun c => (cost c : ℝ)).sum)) := by
                rw [← Real.exp_add]
                congr 1
                ring
              have h2' : unlog (val (get c)) * Real.exp (-(3 * ε * cost c)) ≤ M.pmax J c := by
                rw [hbc, unlog_fin, ← Real.exp_add]
                exact h2
              rw [e]
              have h3 : 0 ≤ (l.map fun c => unlog (val (get c))).prod * Real.exp (-(3 * ε * (l.map fun c => (cost c : ℝ)).sum)) := by
                refine mul_nonneg (List.prod_nonneg fun x hx => ?_) (Real.exp_pos _).le
                obtain ⟨d, _, rfl⟩ := List.mem_map.1 hx
                exact unlog_nonneg _
              have h4 : 0 ≤ unlog (val (get c)) * Real.exp (-(3 * ε * cost c)) := mul_nonneg (unlog_nonneg _) (Real.exp_pos _).le
              calc _ = (unlog (val (get c)) * Real.exp (-(3 * ε * cost c))) * ((l.map fun c => unlog (val (get c))).prod * Real.exp (-(3 * ε * (l.map fun c => (cost c : ℝ)).sum))) := by ring
                _ ≤ M.pmax J c * (l.map fun c => M.pmax J c).prod := mul_le_mul h2' h1 h3 (le_trans h4 h2')
          refine le_trans ?_ (hlow cs fun _ h => h)
          refine le_trans ?_ (mul_le_mul_of_nonneg_right p2 (Real.exp_pos _).le)
          rw [← Real.exp_add, ← Real.exp_add]
          refine Real.exp_le_exp.2 ?_
          have hc0' : (cs.map fun c => (cost c : ℝ)).sum + cs.length ≤ cost n := by
            have h1 : ((cs.map fun c => cost c + 1).sum : ℝ) ≤ (cost n : ℝ) := by exact_mod_cast hc0
            have h2 : ∀ l : List ι, ((l.map fun c => cost c + 1).sum : ℝ) = (l.map fun c => (cost c : ℝ)).sum + l.length := by
              intro l
              induction l with
              | nil => simp
              | cons a l ih =>
                simp only [List.map_cons, List.sum_cons, List.length_cons]
                push_cast at ih ⊢
                rw [ih]
                ring
            rw [h2] at h1
            exact h1
          have h4 : 3 * ε * ((cs.map fun c => (cost c : ℝ)).sum + cs.length) ≤ 3 * ε * cost n := mul_le_mul_of_nonneg_left hc0' (by positivity)
          have h5 : 0 ≤ (cs.length : ℝ) * ε := by positivity
          nlinarith
        | sum cs w =>
          obtain ⟨q, c, i, s, b', h1, h2, h3, h4, h5, h6, h7⟩ := sum_step (pick := pick) hac hR heq hL hLK hK hsm hcost hsmall hcS hru hk (fun c hc => hget c (hchild hru (by simp [Net.ch, hk]) hc)) (hget n hru) hb
          have g5 := ihc c (by simp [Net.mapCand, hk, h2]) b' h6
          simp only [hk] at hc0
          have hcc : (cost c : ℝ) + 1 ≤ cost n := by exact_mod_cast hc0 c (List.mem_of_getElem? h3)
          have hεc : 3 * ε * (cost c + 1) ≤ 3 * ε * cost n := mul_le_mul_of_nonneg_left hcc (by positivity)
          obtain ⟨_, r, hqr, hrl, _⟩ := hw n hru' cs q h1
          subst hqr
          obtain ⟨g', us', k1, k2, k3, k4, k5, k6, k7, k8⟩ := Net.max_sum hac' hw (leaves_max hl hJ) hru' h1
          rw [List.getElem?_map, Option.map_eq_some_iff] at h4
          obtain ⟨s', hs', hs'e⟩ := h4
          cases hs'e
          have h1' : (us'.map unlog)[i]? = some (s * M.pmax J c) := by rw [k5, List.getElem?_zipWith]; simp [h3, hs']
          rw [List.getElem?_map, Option.map_eq_some_iff] at h1'
          obtain ⟨u', hu', hue⟩ := h1'
          rw [Net.pmax_some k6]
          refine le_trans ?_ ((maxCompute_spec us' k4).2.2 u' (List.mem_of_getElem? hu'))
          rw [hue]
          refine le_trans ?_ (mul_le_mul_of_nonneg_left g5 h5)
          have h8 := mul_le_mul_of_nonneg_right h7 (Real.exp_pos (-(3 * ε * (cost c + 1)))).le
          have e2 : Real.exp (3 * ε) * (s * Real.exp b') * Real.exp (-(3 * ε * (cost c + 1))) = s * Real.exp (b' - 3 * ε * cost c) := by
            have : Real.exp (b' - 3 * ε * cost c) = Real.exp (3 * ε) * Real.exp b' * Real.exp (-(3 * ε * (cost c + 1))) := by
              rw [← Real.exp_add, ← Real.exp_add]
              congr 1
              ring
            rw [this]
            ring
          rw [e2, ← Real.exp_add] at h8
          refine le_trans (Real.exp_le_exp.2 ?_) h8
          linarith
    exact key S Relation.ReflTransGen.refl a ha

end
end Gospn
