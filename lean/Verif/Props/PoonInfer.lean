/-
Theorems about the values and choices of learn/poon/poon.go while the network grows: C105.
-/
import Verif.Spec.PoonInfer
import Verif.Spec.Graph
import Verif.Proofs.PoonTotal
import Verif.Proofs.Infer

set_option linter.unusedSectionVars false
set_option linter.unusedSimpArgs false

namespace Gospn
open Spec GoFloat

/-- The probability that a table of logarithms holds for a node. -/
noncomputable def tabProb (t : PNode → Option XR) (n : PNode) : ℝ := unlog (single t n)

theorem single_some {t : PNode → Option XR} {n : PNode} {v : XR} (h : t n = some v) : single t n = v := by simp [single, h]

theorem storeVals_ones {t : PNode → Option XR} : ∀ (cs : List PNode), (∀ c ∈ cs, ∃ v, t c = some v ∧ IsLogProb v) →
    ∃ vs, storeVals t cs (cs.map fun _ => (ofInt 1 : XR)) = some (some vs) ∧ vs.length = cs.length ∧ (∀ v ∈ vs, IsLogProb v) ∧ vs.map unlog = cs.map (tabProb t) := by
  intro cs
  induction cs with
  | nil => intro _; exact ⟨[], rfl, rfl, by simp, rfl⟩
  | cons c cs ih =>
    intro h
    obtain ⟨vs, h1, h2, h3, h4⟩ := ih fun d hd => h d (by simp [hd])
    obtain ⟨v, hv, hl⟩ := h c (by simp)
    rw [List.map_cons]
    unfold storeVals
    rw [hv]
    dsimp only
    rw [h1, Option.map_some, Option.map_some]
    have h5 : IsLogProb (GoFloat.log (ofInt 1 : XR)) ∧ unlog (GoFloat.log (ofInt 1 : XR)) = 1 := by
      rw [XR.g_log, XR.g_ofInt, XR.log_pos (by norm_num)]
      simp
    obtain ⟨h6, h7⟩ := add_spec hl h5.1
    refine ⟨_, rfl, by simp [h2], ?_, ?_⟩
    · intro u hu
      rcases List.mem_cons.1 hu with rfl | hu
      · exact h6
      · exact h3 u hu
    · rw [List.map_cons, List.map_cons, h4]
      congr 1
      rw [show unlog (GoFloat.add v (GoFloat.log (ofInt 1 : XR))) = unlog v * unlog (GoFloat.log (ofInt 1 : XR)) from h7, h5.2, mul_one]
      simp [tabProb, single_some hv]

/-- The order has every node once, after its children, relative to the nodes `done` before. -/
theorem storeInto_eval {N : Net PNode XR} {I : VarSet} (hl : ∀ n l, N.kind n = .leaf l → ∃ a, l.value I = some (XR.fin a))
    (hw : ∀ n cs ws, N.kind n = .sum cs ws → ws = cs.map fun _ => ofInt 1) :
    ∀ (O done : List PNode) (t : PNode → Option XR), (done ++ O).Nodup → ChildrenFirst N.ch (done ++ O) →
      (∀ n ∈ done, (∃ x, t n = some x ∧ IsLogProb x) ∧ EvaluatesAt N I (tabProb t) n) →
      ∃ t', storeInto N I t O = some t' ∧ (∀ n, n ∉ O → t' n = t n) ∧ ∀ n ∈ done ++ O, (∃ x, t' n = some x ∧ IsLogProb x) ∧ EvaluatesAt N I (tabProb t') n := by
  intro O
  induction O with
  | nil => intro done t _ _ h; exact ⟨t, rfl, fun _ _ => rfl, by simpa using h⟩
  | cons s O ih =>
    intro done t hnd hcf hd
    have hsplit : done ++ s :: O = (done ++ [s]) ++ O := by simp
    have hs : s ∉ done := by
      intro h
      rw [List.nodup_append] at hnd
      exact hnd.2.2 s h s (by simp) rfl
    have hsO : s ∉ O := by
      rw [List.nodup_append] at hnd
      exact (List.nodup_cons.1 hnd.2.1).1
    have hkids : ∀ c ∈ N.ch s, c ∈ done := hcf done s O rfl
    have hval : ∀ c ∈ N.ch s, ∃ v, t c = some v ∧ IsLogProb v := fun c hc => (hd c (hkids c hc)).1
    -- one more entry
    have step : ∀ x, IsLogProb x → EvaluatesAt N I (tabProb (Function.update t s (some x))) s →
        ∃ t', storeInto N I (Function.update t s (some x)) O = some t' ∧ (∀ n, n ∉ s :: O → t' n = t n) ∧
          ∀ n ∈ done ++ s :: O, (∃ x, t' n = some x ∧ IsLogProb x) ∧ EvaluatesAt N I (tabProb t') n := by
      intro x hx he
      have hsame : ∀ n, n ≠ s → tabProb (Function.update t s (some x)) n = tabProb t n := by
        intro n hn
        simp [tabProb, single, Function.update_of_ne hn]
      obtain ⟨t', h1, h2, h3⟩ := ih (done ++ [s]) (Function.update t s (some x)) (hsplit ▸ hnd) (hsplit ▸ hcf) (by
        intro n hn
        rcases List.mem_append.1 hn with hn' | hn'
        · clear hn
          rename' hn' => hn
          have hns : n ≠ s := fun e => hs (e ▸ hn)
          obtain ⟨⟨y, hy, hly⟩, e⟩ := hd n hn
          refine ⟨⟨y, by rw [Function.update_of_ne hns]; exact hy, hly⟩, ?_⟩
          have hk : ∀ c ∈ N.ch n, c ≠ s := by
            obtain ⟨a, b, hab⟩ := List.append_of_mem hn
            rintro c hc rfl
            have hca := hcf a n (b ++ c :: O) (by rw [hab]; simp) c hc
            exact hs (by rw [hab]; simp [hca])
          refine ⟨fun l h => ?_, fun cs r h => ?_, fun cs h => ?_⟩
          · obtain ⟨v, h1, h2⟩ := e.leaf l h
            exact ⟨v, h1, by rw [hsame n hns]; exact h2⟩
          · rw [hsame n hns, e.sum cs r h]
            have hch : ∀ c ∈ cs, c ≠ s := fun c hc => hk c (by unfold Net.ch; rw [h]; exact hc)
            congr 1
            clear h
            induction cs generalizing r with
            | nil => simp
            | cons c cs ih' =>
              cases r with
              | nil => rfl
              | cons a r =>
                rw [List.zipWith_cons_cons, List.zipWith_cons_cons, hsame c (hch c (by simp)), ih' r fun d hd => hch d (by simp [hd])]
          · rw [hsame n hns, e.product cs h]
            congr 1
            apply List.map_congr_left
            intro c hc
            exact (hsame c (hk c (by unfold Net.ch; rw [h]; exact hc))).symm
        · obtain rfl := List.mem_singleton.1 hn'
          exact ⟨⟨x, by simp, hx⟩, he⟩)
      refine ⟨t', h1, ?_, ?_⟩
      · intro n hn
        rw [h2 n (fun h => hn (by simp [h])), Function.update_of_ne (fun h => hn (by simp [h]))]
      · intro n hn
        exact h3 n (by rw [← hsplit]; exact hn)
    have hself : ∀ x, tabProb (Function.update t s (some x)) s = unlog x := by intro x; simp [tabProb, single]
    have hother : ∀ x c, c ∈ N.ch s → tabProb (Function.update t s (some x)) c = tabProb t c := by
      intro x c hc
      have : c ≠ s := by rintro rfl; exact hs (hkids c hc)
      simp [tabProb, single, Function.update_of_ne this]
    unfold storeInto
    cases hk : N.kind s with
    | leaf l =>
      obtain ⟨a, ha⟩ := hl s l hk
      dsimp only
      rw [ha, Option.bind_some]
      refine step _ (isLogProb_fin a) ⟨fun l' h => ?_, fun cs r h => ?_, fun cs h => ?_⟩
      · rw [hk] at h; cases h
        exact ⟨_, ha, hself _⟩
      · rw [hk] at h; cases h
      · rw [hk] at h; cases h
    | sum cs ws =>
      obtain rfl := hw s cs ws hk
      have hch : N.ch s = cs := by unfold Net.ch; rw [hk]
      rw [hch] at hval hother
      obtain ⟨vs, h1, h2, h3, h4⟩ := storeVals_ones cs hval
      dsimp only
      rw [h1, Option.bind_some]
      dsimp only
      have hsum : ∀ x, unlog x = (cs.map (tabProb t)).sum → EvaluatesAt N I (tabProb (Function.update t s (some x))) s := by
        intro x hx
        refine ⟨fun l' h => ?_, fun cs' r h => ?_, fun cs h => ?_⟩
        · rw [hk] at h; cases h
        · rw [hk] at h
          obtain ⟨rfl, hr⟩ : cs = cs' ∧ (cs.map fun _ => (ofInt 1 : XR)) = r.map XR.fin := by
            injection h with e1 e2
            exact ⟨e1, e2⟩
          rw [hself, hx]
          clear h1 h2 h4 hx hch hk h
          congr 1
          induction cs generalizing r with
          | nil => simp
          | cons c cs ih' =>
            cases r with
            | nil => simp at hr
            | cons a r =>
              rw [List.map_cons, List.map_cons, List.cons.injEq] at hr
              have ha : a = 1 := by
                have := hr.1
                rw [XR.g_ofInt] at this
                cases this
                norm_num
              rw [List.map_cons, List.zipWith_cons_cons, ha, one_mul, hother x c (by simp),
                ih' (fun x d hd => hother x d (by simp [hd])) (fun d hd => hval d (by simp [hd])) r hr.2]
        · rw [hk] at h; cases h
      by_cases h0 : cs.length = 0
      · rw [if_pos h0, Option.bind_some]
        refine step _ isLogProb_ninf (hsum _ ?_)
        rw [List.length_eq_zero_iff.1 h0]
        simp [show (ninf : XR) = XR.ninf from rfl]
      · rw [if_neg h0]
        obtain ⟨v, h5, h6, h7⟩ := logSumExp_spec (l := vs) (by rintro rfl; exact h0 h2.symm) h3
        rw [h5, Option.bind_some]
        exact step _ h6 (hsum _ (by rw [h7, h4]))
    | product cs =>
      have hch : N.ch s = cs := by unfold Net.ch; rw [hk]
      rw [hch] at hval hother
      dsimp only
      have hall : ∀ v ∈ cs.map fun c => (t c).getD (ofInt 0), IsLogProb v := by
        intro v hv
        obtain ⟨c, hc, rfl⟩ := List.mem_map.1 hv
        obtain ⟨x, hx, hlx⟩ := hval c hc
        rw [hx]; exact hlx
      obtain ⟨h1, h2⟩ := prodCompute_spec _ hall
      refine step _ h1 ⟨fun l' h => ?_, fun cs' r h => ?_, fun cs' h => ?_⟩
      · rw [hk] at h; cases h
      · rw [hk] at h; cases h
      · rw [hk] at h
        cases h
        rw [hself, h2, List.map_map]
        congr 1
        apply List.map_congr_left
        intro c hc
        rw [hother _ c hc]
        rfl

/-- C105, part: evaluation of the network built so far. When the nodes below a sum with children are listed children first, the table holds afterwards the logarithm of the probability
of the image at every one of them, and what it held before at all others; for a sum without children it is left as it is. -/
theorem C105_values_partial {w : Nat} (ord : PState XR → PNode → List PNode) (I : VarSet) {st : PState XR} {s : PNode}
    (hl : ∀ n l, (st.net w).kind n = .leaf l → ∃ a, l.value I = some (XR.fin a)) (hw : ∀ n cs ws, (st.net w).kind n = .sum cs ws → ws = cs.map fun _ => ofInt 1)
    (ho : DependencyOrder (st.net w).ch s (ord st s)) :
    ((st.net w).ch s = [] → poonInfer w ord I st s = some st.tab) ∧
    ((st.net w).ch s ≠ [] → ∃ t, poonInfer w ord I st s = some t ∧ (∀ n, ¬ Reach (st.net w).ch s n → t n = st.tab n) ∧
      ∀ n, Reach (st.net w).ch s n → (∃ x, t n = some x ∧ IsLogProb x) ∧ EvaluatesAt (st.net w) I (tabProb t) n) := by
  refine ⟨fun h => by unfold poonInfer; rw [h]; rfl, fun h => ?_⟩
  unfold poonInfer
  rw [if_neg (by rw [List.length_eq_zero_iff]; exact h)]
  obtain ⟨⟨hnd, hmem⟩, hcf⟩ := ho
  obtain ⟨t, h1, h2, h3⟩ := storeInto_eval hl hw (ord st s) [] st.tab (by simpa using hnd) (by simpa using hcf) (by simp)
  refine ⟨t, h1, fun n hn => h2 n fun h => hn ((hmem n).1 h), fun n hn => h3 n (by simpa using (hmem n).2 hn)⟩

/-! ### The choice of a decomposition -/

theorem pair_ninf {v : XR} (hv : IsLogProb v) : logSumExpPair (XR.ninf) v = v := by
  obtain ⟨h1, h2⟩ := logSumExpPair_spec (x := .ninf) (by simp) hv
  exact unlog_inj h1 hv (by simpa using h2)

theorem pair_ninf' {v : XR} (hv : IsLogProb v) : logSumExpPair v (XR.ninf) = v := by
  obtain ⟨h1, h2⟩ := logSumExpPair_spec (y := .ninf) hv (by simp)
  exact unlog_inj h1 hv (by simpa using h2)

theorem lt_unlog {x y : XR} (hx : IsLogProb x) (hy : IsLogProb y) : GoFloat.lt x y = true ↔ unlog x < unlog y := by
  rcases IsLogProb.cases hx with rfl | ⟨a, rfl⟩ <;> rcases IsLogProb.cases hy with rfl | ⟨b, rfl⟩ <;> simp [XR.lt, Real.exp_pos, (Real.exp_pos _).le]

theorem eq_unlog {x y : XR} (hx : IsLogProb x) (hy : IsLogProb y) : GoFloat.eq x y = true ↔ unlog x = unlog y := by
  rcases IsLogProb.cases hx with rfl | ⟨a, rfl⟩ <;> rcases IsLogProb.cases hy with rfl | ⟨b, rfl⟩ <;> simp [XR.eq, Real.exp_ne_zero, (Real.exp_ne_zero _).symm]

/-- The best children so far and their value. -/
structure BestSoFar (f : Decomp → ℝ) (l : List Decomp) (a : List Decomp × XR) : Prop where
  log : IsLogProb a.2
  some : l ≠ [] → a.1 ≠ []
  none : l = [] → a.1 = []
  mem : ∀ d ∈ a.1, d ∈ l ∧ f d = unlog a.2
  max : ∀ d ∈ l, f d ≤ unlog a.2

theorem childStep_best {tab : PNode → Option XR} (ht : Logs tab) {l : List Decomp} {a : List Decomp × XR} (h : BestSoFar (fun d => tabProb tab (.prod d)) l a) (c : Decomp × XR) :
    BestSoFar (fun d => tabProb tab (.prod d)) (l ++ [c.1]) (childStep tab .ninf a c) := by
  have hv := ht.single (.prod c.1)
  unfold childStep
  dsimp only
  rw [pair_ninf hv]
  by_cases hl : l = []
  · subst hl
    have h1 := h.none rfl
    rw [h1]
    simp only [List.isEmpty_nil, Bool.true_or, if_true, (eq_unlog hv hv).2 rfl, List.nil_append]
    exact ⟨hv, by simp, by simp, by intro d hd; simp at hd; subst hd; simp [tabProb], by intro d hd; simp at hd; subst hd; simp [tabProb]⟩
  · have h1 := h.some hl
    have he : a.1.isEmpty = false := by simpa using h1
    rw [he, Bool.false_or]
    by_cases hlt : unlog a.2 < tabProb tab (.prod c.1)
    · rw [if_pos ((lt_unlog h.log hv).2 hlt)]
      simp only [(eq_unlog hv hv).2 rfl, if_true, List.nil_append]
      refine ⟨hv, by simp, by simp, by intro d hd; simp at hd; subst hd; simp [tabProb], ?_⟩
      intro d hd
      rcases List.mem_append.1 hd with hd | hd
      · exact (h.max d hd).trans hlt.le
      · simp at hd; subst hd; simp [tabProb]
    · rw [if_neg (fun e => hlt ((lt_unlog h.log hv).1 e))]
      by_cases heq : unlog a.2 = unlog (single tab (.prod c.1))
      · rw [if_pos ((eq_unlog h.log hv).2 heq)]
        refine ⟨h.log, by simp, by simp, ?_, ?_⟩
        · intro d hd
          rcases List.mem_append.1 hd with hd | hd
          · obtain ⟨h2, h3⟩ := h.mem d hd
            exact ⟨by simp [h2], h3⟩
          · simp at hd; subst hd; exact ⟨by simp, heq.symm⟩
        · intro d hd
          rcases List.mem_append.1 hd with hd | hd
          · exact h.max d hd
          · simp at hd; subst hd; exact heq.symm.le
      · rw [if_neg (fun e => heq ((eq_unlog h.log hv).1 e))]
        refine ⟨h.log, fun _ => h1, by simp, ?_, ?_⟩
        · intro d hd
          obtain ⟨h2, h3⟩ := h.mem d hd
          exact ⟨by simp [h2], h3⟩
        · intro d hd
          rcases List.mem_append.1 hd with hd | hd
          · exact h.max d hd
          · simp at hd; subst hd; exact not_lt.1 hlt

theorem childFold_best {tab : PNode → Option XR} (ht : Logs tab) : ∀ (kids : List (Decomp × XR)) (l : List Decomp) (a : List Decomp × XR), BestSoFar (fun d => tabProb tab (.prod d)) l a →
    BestSoFar (fun d => tabProb tab (.prod d)) (l ++ kids.map Prod.fst) (kids.foldl (childStep tab .ninf) a) := by
  intro kids
  induction kids with
  | nil => intro l a h; simpa using h
  | cons c kids ih =>
    intro l a h
    have := ih (l ++ [c.1]) _ (childStep_best ht h c)
    simpa using this

/-- Nothing beats a value of one if all are smaller. -/
theorem childFold_stale {tab : PNode → Option XR} (ht : Logs tab) (bd : List Decomp) (hbd : bd ≠ []) : ∀ (kids : List (Decomp × XR)), (∀ c ∈ kids, tabProb tab (.prod c.1) < 1) →
    kids.foldl (childStep tab .ninf) (bd, .fin 0) = (bd, .fin 0) := by
  intro kids
  induction kids with
  | nil => intro _; rfl
  | cons c kids ih =>
    intro h
    rw [List.foldl_cons]
    have hv := ht.single (.prod c.1)
    have hlt : unlog (single tab (.prod c.1)) < 1 := h c (by simp)
    have hstep : childStep tab .ninf (bd, .fin 0) c = (bd, .fin 0) := by
      unfold childStep
      dsimp only
      rw [pair_ninf hv]
      have he : bd.isEmpty = false := by simpa using hbd
      have h1 : ¬ GoFloat.lt (XR.fin 0) (single tab (.prod c.1)) = true := fun e => by have := (lt_unlog (isLogProb_fin 0) hv).1 e; simp at this; linarith
      have h2 : ¬ GoFloat.eq (XR.fin 0) (single tab (.prod c.1)) = true := fun e => by have := (eq_unlog (isLogProb_fin 0) hv).1 e; simp at this; linarith
      rw [he, Bool.false_or, if_neg h1, if_neg h2]
    rw [hstep]
    exact ih fun d hd => h d (by simp [hd])

/-- The sum that is looked at, and its value: the count of a sum is zero, so its product with the count has the logarithm of zero. -/
theorem used_z {st : PState XR} {k : Rect} {i : Nat} (hc : st.counts (.sum k i) = none) {v : XR} (hv : IsLogProb v) :
    GoFloat.add v (GoFloat.log (single st.counts (.sum k i))) = XR.ninf := by
  have h1 : single st.counts (.sum k i) = XR.fin 0 := by simp [single, hc]
  rw [h1, XR.g_log, XR.log_zero]
  rcases IsLogProb.cases hv with rfl | ⟨a, rfl⟩ <;> simp

theorem used_sub {st : PState XR} {k : Rect} {i : Nat} (hc : st.counts (.sum k i) = none) {v : XR} (hv : IsLogProb v) :
    GoFloat.sub v (GoFloat.log (GoFloat.add (single st.counts (.sum k i)) (ofInt 1))) = v := by
  have h1 : single st.counts (.sum k i) = XR.fin 0 := by simp [single, hc]
  rw [h1, XR.g_log, XR.g_ofInt, XR.g_add, XR.add_fin, XR.log_pos (by norm_num)]
  rcases IsLogProb.cases hv with rfl | ⟨a, rfl⟩ <;> simp

/-- C105, part: the first sum of a region that has children gets one of its children with the largest value for the image, or the candidate if that is not in the network yet and has a
larger value than all of them; and the value kept for the sum is that of the choice. Missing: the other sums of the region, see `C105_stale`. -/
theorem C105_first_partial {pick : Nat → Nat → Nat} (hpick : GoodPick pick) (infer : PState XR → PNode → Option (PNode → Option XR)) {st : PState XR} {k : Rect} {cd : Decomp} {maxProd : XR}
    (hm : IsLogProb maxProd) {u : Used XR} {kids : List (Decomp × XR)} {i : Nat} (hk : kids ≠ []) (hmade : ∀ c ∈ kids, st.made c.1 = true) (hbd : u.bd = []) (hi : i < u.best.length)
    (hc : st.counts (.sum k i) = none) {tab : PNode → Option XR} (hinf : infer { st with tab := u.tab, draws := u.draws } (.sum k i) = some tab) (ht : Logs tab) :
    ∃ u' d, usedStep pick infer st k cd maxProd u (kids, i) = some u' ∧ u'.best = u.best.set i (some d) ∧
      BestOf (fun e => if st.made e then tabProb tab (.prod e) else unlog maxProd) (kids.map Prod.fst ++ if st.made cd then [] else [cd]) d ∧
      (u'.bd ≠ [] ∧ ∀ e ∈ u'.bd, BestOf (fun e => if st.made e then tabProb tab (.prod e) else unlog maxProd) (kids.map Prod.fst ++ if st.made cd then [] else [cd]) e) ∧
      ∃ x, u'.tab = Function.update tab (.sum k i) (some x) ∧ IsLogProb x ∧ unlog x = if st.made d then tabProb tab (.prod d) else unlog maxProd := by
  have hz := used_z (st := st) (k := k) (i := i) hc (ht.single (.sum k i))
  obtain ⟨b1, b2, b3, b4, b5⟩ := childFold_best ht kids [] ([], ofInt 0) ⟨by simp, by simp, by simp, by simp, by simp⟩
  have hmadeOf : ∀ d ∈ kids.map Prod.fst, st.made d = true := by
    intro d hd
    obtain ⟨c, hc, rfl⟩ := List.mem_map.1 hd
    exact hmade c hc
  have hlen : kids.length ≠ 0 := by simpa using hk
  have hv : (if GoFloat.eq (single tab (.sum k i)) (ninf : XR) = true then maxProd else logSumExpPair maxProd XR.ninf) = maxProd := by
    rw [pair_ninf' hm]; split <;> rfl
  unfold usedStep
  dsimp only
  rw [if_neg hlen, hinf, Option.bind_some]
  rw [hz, hbd, hv]
  simp only [List.nil_append] at b2 b3 b4 b5
  generalize kids.foldl (childStep tab .ninf) ([], ofInt 0) = a at b1 b2 b3 b4 b5
  have hne := b2 (by simpa using hk)
  -- the list drawn from and its value
  obtain ⟨a', ha', h1, h2, h3⟩ : ∃ a' : List Decomp × XR, (if st.made cd = true then a else if (a.1.isEmpty || GoFloat.lt a.2 maxProd) = true then ([cd], maxProd) else a) = a' ∧ a'.1 ≠ [] ∧ IsLogProb a'.2 ∧
      ∀ d ∈ a'.1, BestOf (fun e => if st.made e then tabProb tab (.prod e) else unlog maxProd) (kids.map Prod.fst ++ if st.made cd then [] else [cd]) d ∧
        unlog a'.2 = if st.made d then tabProb tab (.prod d) else unlog maxProd := by
    by_cases hcd : st.made cd = true
    · rw [if_pos hcd]
      refine ⟨a, rfl, hne, b1, ?_⟩
      intro d hd
      obtain ⟨h4, h5⟩ := b4 d hd
      rw [if_pos hcd, List.append_nil, if_pos (hmadeOf d h4)]
      refine ⟨⟨h4, ?_⟩, h5.symm⟩
      intro e he
      dsimp only
      rw [if_pos (hmadeOf d h4), if_pos (hmadeOf e he), h5]
      exact b5 e he
    · rw [if_neg hcd]
      have he : a.1.isEmpty = false := by simpa using hne
      rw [he, Bool.false_or]
      simp only [if_neg hcd]
      by_cases hlt : unlog a.2 < unlog maxProd
      · rw [if_pos ((lt_unlog b1 hm).2 hlt)]
        refine ⟨_, rfl, by simp, hm, ?_⟩
        intro d hd
        simp at hd; subst hd
        rw [if_neg hcd]
        refine ⟨⟨by simp, ?_⟩, rfl⟩
        intro e he
        dsimp only
        rw [if_neg hcd]
        rcases List.mem_append.1 he with he | he
        · rw [if_pos (hmadeOf e he)]
          exact (b5 e he).trans hlt.le
        · simp at he; subst he; rw [if_neg hcd]
      · rw [if_neg (fun e => hlt ((lt_unlog b1 hm).1 e))]
        refine ⟨a, rfl, hne, b1, ?_⟩
        intro d hd
        obtain ⟨h4, h5⟩ := b4 d hd
        rw [if_pos (hmadeOf d h4)]
        refine ⟨⟨by simp [h4], ?_⟩, h5.symm⟩
        intro e he
        dsimp only
        rw [if_pos (hmadeOf d h4), h5]
        rcases List.mem_append.1 he with he | he
        · rw [if_pos (hmadeOf e he)]; exact b5 e he
        · simp at he; subst he; rw [if_neg hcd]; exact not_lt.1 hlt
  rw [ha', used_sub hc h2]
  obtain ⟨d, hd, hmem, _⟩ := drawFrom_good hpick u.draws h1
  obtain ⟨h4, h5⟩ := h3 d hmem
  rw [hd, Option.bind_some]
  unfold setIdx
  rw [if_pos hi, Option.bind_some]
  exact ⟨_, d, rfl, rfl, h4, ⟨h1, fun e he => (h3 e he).1⟩, a'.2, rfl, h2, h5⟩

/-- C105, the error: `bestDecomp` is not emptied between the sums of a region while `mS` starts again at zero, the logarithm of one. So a later sum whose children all have values smaller
than one, with no new candidate of a value larger than one, gets a decomposition found for an earlier sum, and the value one. -/
theorem C105_stale {pick : Nat → Nat → Nat} (hpick : GoodPick pick) (infer : PState XR → PNode → Option (PNode → Option XR)) {st : PState XR} {k : Rect} {cd : Decomp} {maxProd : XR}
    (hm : IsLogProb maxProd) {u : Used XR} {kids : List (Decomp × XR)} {i : Nat} (hk : kids ≠ []) (hbd : u.bd ≠ []) (hi : i < u.best.length)
    (hc : st.counts (.sum k i) = none) {tab : PNode → Option XR} (hinf : infer { st with tab := u.tab, draws := u.draws } (.sum k i) = some tab) (ht : Logs tab)
    (hsmall : ∀ c ∈ kids, tabProb tab (.prod c.1) < 1) (hcand : st.made cd = true ∨ unlog maxProd ≤ 1) :
    ∃ u' d, usedStep pick infer st k cd maxProd u (kids, i) = some u' ∧ u'.best = u.best.set i (some d) ∧ d ∈ u.bd ∧ u'.bd = u.bd ∧ u'.tab = Function.update tab (.sum k i) (some (.fin 0)) := by
  have hz := used_z (st := st) (k := k) (i := i) hc (ht.single (.sum k i))
  have hlen : kids.length ≠ 0 := by simpa using hk
  have hv : (if GoFloat.eq (single tab (.sum k i)) (ninf : XR) = true then maxProd else logSumExpPair maxProd XR.ninf) = maxProd := by
    rw [pair_ninf' hm]; split <;> rfl
  have h0 : (ofInt 0 : XR) = XR.fin 0 := by simp
  unfold usedStep
  dsimp only
  rw [if_neg hlen, hinf, Option.bind_some]
  rw [hz, hv, h0, childFold_stale ht u.bd hbd kids hsmall]
  have ha : (if st.made cd = true then (u.bd, XR.fin 0) else if ((u.bd, XR.fin 0).1.isEmpty || GoFloat.lt (u.bd, XR.fin 0).2 maxProd) = true then ([cd], maxProd) else (u.bd, XR.fin 0)) = (u.bd, XR.fin 0) := by
    rcases hcand with h | h
    · rw [if_pos h]
    · have he : u.bd.isEmpty = false := by simpa using hbd
      have hlt : ¬ GoFloat.lt (XR.fin 0) maxProd = true := fun e => by have := (lt_unlog (isLogProb_fin 0) hm).1 e; simp at this; linarith
      simp [he, hlt]
  rw [ha]
  dsimp only
  rw [used_sub hc (isLogProb_fin 0)]
  obtain ⟨d, hd, hmem, _⟩ := drawFrom_good hpick u.draws hbd
  rw [hd, Option.bind_some]
  unfold setIdx
  rw [if_pos hi, Option.bind_some]
  exact ⟨_, d, rfl, rfl, hmem, rfl, rfl⟩

/-! ### Two pixels -/

namespace PoonChoice

/-- Two pixels, and the rectangle of both. -/
def a : Rect := ⟨1, 0, 2, 1⟩
def b : Rect := ⟨0, 0, 1, 1⟩
def k : Rect := ⟨0, 0, 2, 1⟩

/-- Two decompositions into the same rectangles, with other Gaussians. -/
def d (i : Nat) : Decomp := ⟨a, b, i, i⟩

/-- A region with two sums of one child each. -/
noncomputable def kids (i : Nat) : List (Decomp × XR) := [(d i, ofInt 1)]

/-- Two Gaussians per pixel; all products exist. -/
noncomputable def st : PState XR where
  L := fun r => if r = k then some ⟨.sums [kids 0, kids 1], 1, none, [none, none]⟩
    else if r = a ∨ r = b then some ⟨.gauss [(.fin 0, .fin 1), (.fin 1, .fin 1)], 1, some 0, []⟩ else none
  tab := fun _ => none
  counts := fun _ => none
  made := fun _ => true
  draws := 0

/-- The nodes below a sum, children first. -/
def ord (_ : PState XR) (n : PNode) : List PNode :=
  match n with
  | .sum _ i => [.gauss a i, .gauss b i, .prod (d i), .sum k i]
  | _ => []

/-- A black image. -/
def image : VarSet := fun v => if v = 0 ∨ v = 1 then some 0 else none

theorem st_k : st.L k = some ⟨.sums [kids 0, kids 1], 1, none, [none, none]⟩ := by simp [st]
theorem st_a : st.L a = some ⟨.gauss [(.fin 0, .fin 1), (.fin 1, .fin 1)], 1, some 0, []⟩ := by simp [st, a, k]
theorem st_b : st.L b = some ⟨.gauss [(.fin 0, .fin 1), (.fin 1, .fin 1)], 1, some 0, []⟩ := by simp [st, b, k]

theorem cases_L {r : Rect} {R : PRegion XR} (h : st.L r = some R) :
    (r = k ∧ R.inner = .sums [kids 0, kids 1]) ∨ ((r = a ∨ r = b) ∧ R.inner = .gauss [(.fin 0, .fin 1), (.fin 1, .fin 1)]) := by
  unfold st at h
  dsimp only at h
  split at h
  · cases h; exact Or.inl ⟨‹_›, rfl⟩
  · split at h
    · cases h; exact Or.inr ⟨‹_›, rfl⟩
    · cases h

variable (t : PNode → Option XR) (n : Nat)

/-- The state with another table. -/
noncomputable def at' : PState XR := { st with tab := t, draws := n }

theorem kind_sum (i : Nat) (hi : i < 2) : ((at' t n).net 2).kind (.sum k i) = .sum [.prod (d i)] [ofInt 1] := by
  rcases (show i = 0 ∨ i = 1 by omega) with rfl | rfl <;> simp [PState.net, at', st_k, kids]

theorem kind_prod (i : Nat) : ((at' t n).net 2).kind (.prod (d i)) = .product [.gauss a i, .gauss b i] := by
  simp [PState.net, PState.inner, at', d, st_a, st_b]

theorem kind_gauss (r : Rect) (hr : r = a ∨ r = b) (i : Nat) (hi : i < 2) : ∃ m : ℝ, ((at' t n).net 2).kind (.gauss r i) = .leaf (newGaussianParams ((r.x1 : Int) + (r.y1 : Int) * (2 : Nat)) (.fin m) (.fin 1)) := by
  rcases hr with rfl | rfl <;> rcases (show i = 0 ∨ i = 1 by omega) with rfl | rfl
  · exact ⟨0, by simp [PState.net, at', st_a]⟩
  · exact ⟨1, by simp [PState.net, at', st_a]⟩
  · exact ⟨0, by simp [PState.net, at', st_b]⟩
  · exact ⟨1, by simp [PState.net, at', st_b]⟩

theorem leaves (x : PNode) (l : Leaf XR) (hk : ((at' t n).net 2).kind x = .leaf l) : ∃ y, l.value image = some (XR.fin y) := by
  cases x with
  | gauss r i =>
    rcases net_gauss_cases (at' t n) 2 r i with ⟨R, gs, p, h1, h2, h3⟩ | h4
    · rw [net_gauss h1 h2 h3] at hk
      cases hk
      rcases cases_L (r := r) (R := R) h1 with ⟨_, h5⟩ | ⟨_, h5⟩
      · rw [h5] at h2; cases h2
      · rw [h5] at h2
        cases h2
        refine proper_value ?_ _ _
        have := List.mem_of_getElem? h3
        simp at this
        rcases this with rfl | rfl
        · exact ⟨0, 1, one_pos, rfl⟩
        · exact ⟨1, 1, one_pos, rfl⟩
    · rw [h4] at hk
      cases hk
  | sum r i => rcases net_sum_cases (at' t n) 2 r i with ⟨_, _, _, _, _, _, e⟩ | e <;> rw [e] at hk <;> cases hk
  | prod e => rw [net_prod] at hk; cases hk

theorem weights (x : PNode) (cs : List PNode) (ws : List XR) (hk : ((at' t n).net 2).kind x = .sum cs ws) : ws = cs.map fun _ => ofInt 1 := by
  cases x with
  | gauss r i =>
    rcases net_gauss_cases (at' t n) 2 r i with ⟨R, gs, p, h1, h2, h3⟩ | h4
    · rw [net_gauss h1 h2 h3] at hk
      cases hk
    · rw [h4] at hk; cases hk; rfl
  | sum r i =>
    rcases net_sum_cases (at' t n) 2 r i with ⟨R, ss, kids', h1, h2, h3, e⟩ | e
    · rw [e] at hk
      cases hk
      rcases cases_L (r := r) (R := R) h1 with ⟨_, h5⟩ | ⟨_, h5⟩
      · rw [h5] at h2
        cases h2
        have := List.mem_of_getElem? h3
        simp at this
        rcases this with rfl | rfl <;> simp [kids]
      · rw [h5] at h2; cases h2
    · rw [e] at hk; cases hk; rfl
  | prod e => rw [net_prod] at hk; cases hk

theorem ch_sum (i : Nat) (hi : i < 2) : ((at' t n).net 2).ch (.sum k i) = [.prod (d i)] := by unfold Net.ch; rw [kind_sum t n i hi]
theorem ch_prod (i : Nat) : ((at' t n).net 2).ch (.prod (d i)) = [.gauss a i, .gauss b i] := by unfold Net.ch; rw [kind_prod]
theorem ch_gauss (r : Rect) (hr : r = a ∨ r = b) (i : Nat) (hi : i < 2) : ((at' t n).net 2).ch (.gauss r i) = [] := by
  obtain ⟨m, h⟩ := kind_gauss t n r hr i hi
  unfold Net.ch; rw [h]

theorem order (i : Nat) (hi : i < 2) : DependencyOrder ((at' t n).net 2).ch (.sum k i) (ord (at' t n) (.sum k i)) := by
  have hab : a ≠ b := by decide
  refine ⟨⟨by simp [ord, hab], ?_⟩, ?_⟩
  · intro x
    constructor
    · have h1 : Reach ((at' t n).net 2).ch (.sum k i) (.prod (d i)) := Relation.ReflTransGen.single (by rw [ch_sum t n i hi]; simp)
      intro hx
      simp only [ord, List.mem_cons, List.not_mem_nil, or_false] at hx
      rcases hx with rfl | rfl | rfl | rfl
      · exact h1.tail (by rw [ch_prod]; simp)
      · exact h1.tail (by rw [ch_prod]; simp)
      · exact h1
      · exact Relation.ReflTransGen.refl
    · intro hx
      induction hx with
      | refl => simp [ord]
      | tail _ h ih =>
        simp only [ord, List.mem_cons, List.not_mem_nil, or_false] at ih
        rcases ih with rfl | rfl | rfl | rfl
        · rw [ch_gauss t n a (Or.inl rfl) i hi] at h; simp at h
        · rw [ch_gauss t n b (Or.inr rfl) i hi] at h; simp at h
        · rw [ch_prod] at h
          simp at h
          rcases h with rfl | rfl <;> simp [ord]
        · rw [ch_sum t n i hi] at h
          simp at h
          subst h
          simp [ord]
  · intro before x after he c hc
    unfold ord at he
    dsimp only at he
    match before, he with
    | [], he =>
      simp at he
      obtain ⟨rfl, _⟩ := he
      rw [ch_gauss t n a (Or.inl rfl) i hi] at hc; simp at hc
    | [y], he =>
      simp at he
      obtain ⟨rfl, rfl, _⟩ := he
      rw [ch_gauss t n b (Or.inr rfl) i hi] at hc; simp at hc
    | [y, z], he =>
      simp at he
      obtain ⟨rfl, rfl, rfl, _⟩ := he
      rw [ch_prod] at hc
      simpa using hc
    | [y, z, u], he =>
      simp at he
      obtain ⟨rfl, rfl, rfl, rfl, _⟩ := he
      rw [ch_sum t n i hi] at hc
      simp at hc
      simp [hc]
    | y :: z :: u :: v :: before, he =>
      simp at he

theorem var_one : ((variance 1 : NNReal) : ℝ) = 1 := by norm_num [variance]; rfl

theorem var_ne : variance 1 ≠ 0 := by
  intro h
  have := var_one
  rw [h] at this
  simp at this

theorem pdf_lt (m x : ℝ) : ProbabilityTheory.gaussianPDFReal m (variance 1) x < 1 := by
  unfold ProbabilityTheory.gaussianPDFReal
  have hv : ((variance 1 : NNReal) : ℝ) = 1 := by norm_num [variance]; rfl
  rw [hv]
  have h1 : (1 : ℝ) < Real.sqrt (2 * Real.pi * 1) := by
    rw [Real.lt_sqrt (by norm_num)]
    have := Real.pi_gt_three
    nlinarith
  have h2 : Real.exp (-(x - m) ^ 2 / (2 * 1)) ≤ 1 := by
    rw [Real.exp_le_one_iff]
    have := sq_nonneg (x - m)
    linarith
  have h3 : (Real.sqrt (2 * Real.pi * 1))⁻¹ < 1 := inv_lt_one_of_one_lt₀ h1
  have h4 : 0 ≤ (Real.sqrt (2 * Real.pi * 1))⁻¹ := by positivity
  have h5 := Real.exp_pos (-(x - m) ^ 2 / (2 * 1))
  nlinarith

/-- The network can be evaluated, and the child of each sum has a value smaller than one. -/
theorem infer_some (i : Nat) (hi : i < 2) (ht : Logs t) : ∃ t', poonInfer 2 ord image (at' t n) (.sum k i) = some t' ∧ Logs t' ∧ tabProb t' (.prod (d i)) < 1 := by
  obtain ⟨_, h⟩ := C105_values_partial ord image (leaves t n) (weights t n) (order t n i hi)
  obtain ⟨t', h1, h2, h3⟩ := h (by rw [ch_sum t n i hi]; simp)
  have hr : Reach ((at' t n).net 2).ch (.sum k i) (.prod (d i)) := Relation.ReflTransGen.single (by rw [ch_sum t n i hi]; simp)
  refine ⟨t', h1, ?_, ?_⟩
  · intro m v hv
    by_cases hm : Reach ((at' t n).net 2).ch (.sum k i) m
    · obtain ⟨⟨x, hx, hl⟩, _⟩ := h3 m hm
      rw [hx] at hv; cases hv; exact hl
    · rw [h2 m hm] at hv
      exact ht m v hv
  · have e := (h3 _ hr).2.product _ (kind_prod t n i)
    have hleaf : ∀ r, (r = a ∨ r = b) → 0 ≤ tabProb t' (.gauss r i) ∧ tabProb t' (.gauss r i) < 1 := by
      intro r hr'
      obtain ⟨m, hm⟩ := kind_gauss t n r hr' i hi
      have hg : Reach ((at' t n).net 2).ch (.sum k i) (.gauss r i) := hr.tail (by rw [ch_prod]; rcases hr' with rfl | rfl <;> simp)
      obtain ⟨v, h4, h5⟩ := (h3 _ hg).2.leaf _ hm
      refine ⟨unlog_nonneg _, ?_⟩
      rw [h5]
      have hz : GoFloat.eq (XR.fin 1) (ofInt 0 : XR) = false := by simp [XR.eq]
      have hx : image ((r.x1 : Int) + (r.y1 : Int) * (2 : Nat)) = some 0 := by rcases hr' with rfl | rfl <;> rfl
      simp only [newGaussianParams, Leaf.value, hz, hx, Bool.false_eq_true, if_false] at h4
      rw [XR.g_normLogProb, XR.g_ofInt, normLogProb_fin m 1 _ one_pos] at h4
      cases h4
      rw [unlog_fin, Real.exp_log (ProbabilityTheory.gaussianPDFReal_pos _ _ _ var_ne)]
      exact pdf_lt _ _
    obtain ⟨p1, p2⟩ := hleaf a (Or.inl rfl)
    obtain ⟨q1, q2⟩ := hleaf b (Or.inr rfl)
    rw [e]
    simp only [List.map_cons, List.map_nil, List.prod_cons, List.prod_nil, mul_one]
    nlinarith

end PoonChoice

open PoonChoice in
/-- C105 is false for the second sum of a region with children: in the network of two pixels with two sums, whatever is drawn, the second sum gets the decomposition of the first, which is not
among its children, and is given the value one, although its only child has a smaller one. -/
theorem C105_refuted {pick : Nat → Nat → Nat} (hpick : GoodPick pick) (cd : Decomp) {maxProd : XR} (hm : IsLogProb maxProd) :
    ∃ u : Used XR, [kids 0, kids 1].zipIdx.foldlM (usedStep pick (poonInfer 2 ord image) st k cd maxProd) ⟨st.tab, [none, none], [], [], ninf, 0⟩ = some u ∧
      u.best = [some (d 0), some (d 0)] ∧ d 0 ∉ (kids 1).map Prod.fst ∧ u.tab (.sum k 1) = some (.fin 0) ∧ tabProb u.tab (.prod (d 1)) < 1 := by
  have hmade : ∀ e, st.made e = true := fun _ => rfl
  obtain ⟨t1, i1, l1, _⟩ := infer_some st.tab 0 0 (by norm_num) (fun _ _ h => by cases h)
  obtain ⟨u1, e1, s1, s2, s3, ⟨s4, s5⟩, x, s6, s7, _⟩ := C105_first_partial hpick (poonInfer 2 ord image) (st := st) (k := k) (cd := cd) hm (u := ⟨st.tab, [none, none], [], [], ninf, 0⟩) (kids := kids 0) (i := 0)
    (by simp [kids]) (fun _ _ => rfl) rfl (by simp) rfl i1 l1
  have hb : ∀ e ∈ u1.bd, e = d 0 := by
    intro e he
    have := (s5 e he).1
    simpa [kids, hmade] using this
  have hl1 : Logs u1.tab := by rw [s6]; exact l1.update _ s7
  obtain ⟨t2, i2, l2, h2⟩ := infer_some u1.tab u1.draws 1 (by norm_num) hl1
  obtain ⟨u2, e2, r1, r2, r3, _, r5⟩ := C105_stale hpick (poonInfer 2 ord image) (st := st) (k := k) (cd := cd) hm (u := u1) (kids := kids 1) (i := 1)
    (by simp [kids]) s4 (by rw [s2]; simp) rfl i2 l2 (by simpa [kids] using h2) (Or.inl rfl)
  have h1 : e1 = d 0 := by simpa [kids, hmade] using s3.1
  refine ⟨u2, ?_, ?_, by simp [kids, d], ?_, ?_⟩
  · rw [List.zipIdx_cons, List.zipIdx_cons, List.zipIdx_nil]
    simp only [List.foldlM_cons, List.foldlM_nil]
    rw [s1]
    simp only [Option.bind_eq_bind, Option.bind_some]
    rw [show (0 + 1 : Nat) = 1 from rfl, r1]
    rfl
  · rw [r2, s2, h1, hb e2 r3]; rfl
  · rw [r5]; simp
  · rw [r5]
    simpa [tabProb, single, Function.update] using h2

open PoonChoice in
/-- The hypotheses of `C105_values_partial` and `C105_first_partial` hold for the first sum of the network of two pixels. -/
example : (∃ t, poonInfer 2 ord image st (.sum k 0) = some t ∧ Logs t) ∧ kids 0 ≠ [] ∧ st.counts (.sum k 0) = none :=
  ⟨by obtain ⟨t, h1, h2, _⟩ := infer_some st.tab 0 0 (by norm_num) (fun _ _ h => by cases h); exact ⟨t, h1, h2⟩, by simp [kids], rfl⟩

end Gospn
