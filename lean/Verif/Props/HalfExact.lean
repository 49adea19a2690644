/-
C112: what completeHalfExact completes an image to.
-/
import Verif.Model.HalfExact
import Verif.Spec.HalfExact
import Verif.Props.App
import Verif.Proofs.DeriveWeights

set_option linter.unusedSectionVars false
set_option linter.unusedSimpArgs false

namespace Gospn
open Spec GoFloat
variable {ι F : Type} [GoFloat F] [DecidableEq ι] [Fintype ι]

/-- `StoreInference` leaves the tables of other tickets in place. -/
theorem storeInference_other {N : Net ι F} {S : ι} {I : VarSet} (hS : N.ch S ≠ []) {tk k : Int} (htk : 0 ≤ tk) {st st' : Storer ι F} {r : Option (ι × Int)}
    (h : N.storeInference S I tk st = some (r, st')) (hg : GoodAt k st) : GoodAt k st' := by
  unfold Net.storeInference at h
  rw [if_neg (by simpa using hS), if_neg (by omega)] at h
  dsimp only at h
  cases hl : N.storeInfLoop I (st.table tk) st (N.order S) with
  | none => simp [hl] at h
  | some q =>
    obtain ⟨x, b⟩ := q
    have hs := storeInfLoop_same _ hl
    have hx : x = st' := by cases b <;> simp [hl] at h <;> exact h.2
    subst hx
    exact ⟨hs.wf hg.1, hg.2.1, by simpa [Storer.table, hs.1] using hg.2.2⟩

theorem GoodAt.reset_other {tk : Int} (k : Int) {st : Storer ι F} (h : GoodAt tk st) : GoodAt tk (st.reset k) := by
  refine ⟨Storer.reset_wf h.1 k, h.2.1, ?_⟩
  by_cases e : tk = k
  · subst e; simp [Storer.reset, Storer.makeAt, Storer.table]
  · simpa [Storer.reset, Storer.makeAt, Storer.table, Storer.delete, e] using h.2.2

/-- The comparison of the values of a pixel, without the storage. -/
def halfBest (val : Nat → F) (pe : F) (js : List Nat) (acc : F × Int) : F × Int :=
  js.foldl (fun acc j => if lt acc.1 (sub (val j) pe) then (sub (val j) pe, (j : Int)) else acc) acc

theorem set_eq_given (I : VarSet) (p v : Int) : I.set p v = given I p v := by
  funext k; by_cases h : k = p
  · subst h; simp [VarSet.set, given]
  · simp [VarSet.set, given, h]

theorem halfBest_loop {N : Net ι F} {S : ι} (hac : Acyclic N.ch) (hso : SiblingOrdered N.ch S) (hS : N.ch S ≠ []) (hne : ∀ n cs w, N.kind n = .sum cs w → cs ≠ [])
    {p jtk etk : Int} {pe : F} {J : VarSet} {val : Nat → F} : ∀ (js : List Nat) (y : ImgState ι F), GoodAt jtk y.st → GoodAt etk y.st → (∀ v, y.inst.set p v = J.set p v) →
      (∀ j ∈ js, N.value (J.set p (j : Int)) S = some (val j)) →
      ∃ st' inst', GoodAt jtk st' ∧ GoodAt etk st' ∧ (∀ v, inst'.set p v = J.set p v) ∧
        js.foldlM (halfValueStep N S p jtk pe) y = some ⟨st', inst', (halfBest val pe js (y.max, y.imax)).1, (halfBest val pe js (y.max, y.imax)).2⟩ := by
  intro js
  induction js with
  | nil => intro y hg he hJ _; exact ⟨y.st, y.inst, hg, he, hJ, rfl⟩
  | cons j js ih =>
    intro y hg he hJ hv
    obtain ⟨st1, g1, g2, g3⟩ := storeInference_good hac hso hS hne hg (hv j (by simp))
    have g4 := storeInference_other hS hg.2.1 g1 he
    have hstep : halfValueStep N S p jtk pe y j = some ⟨st1.reset jtk, J.set p (j : Int), (if lt y.max (sub (val j) pe) then (sub (val j) pe, (j : Int)) else (y.max, y.imax)).1,
        (if lt y.max (sub (val j) pe) then (sub (val j) pe, (j : Int)) else (y.max, y.imax)).2⟩ := by
      unfold halfValueStep
      simp only [hJ, g1, g3, Option.map_some, Option.getD_some]
      split <;> rfl
    rw [List.foldlM_cons, hstep]
    exact ih ⟨st1.reset jtk, J.set p (j : Int), (if lt y.max (sub (val j) pe) then (sub (val j) pe, (j : Int)) else (y.max, y.imax)).1,
        (if lt y.max (sub (val j) pe) then (sub (val j) pe, (j : Int)) else (y.max, y.imax)).2⟩ g2.reset (g4.reset_other jtk) (fun v => set_set _ _ _ _) fun i hi => hv i (by simp [hi])

/-- One pixel, for any arithmetic: the first value with the largest difference. -/
theorem halfPixelStep_eq {N : Net ι F} {S : ι} (hac : Acyclic N.ch) (hso : SiblingOrdered N.ch S) (hS : N.ch S ≠ []) (hne : ∀ n cs w, N.kind n = .sum cs w → cs ≠ [])
    {M p jtk etk : Int} {I : VarSet} {pe : F} {val : Nat → F} {st : Storer ι F} (hj : GoodAt jtk st) (he : GoodAt etk st) (hpe : N.value I S = some pe)
    (hv : ∀ j : Nat, (j : Int) < M → N.value (I.set p (j : Int)) S = some (val j)) :
    ∃ st', GoodAt jtk st' ∧ GoodAt etk st' ∧ halfPixelStep N S M jtk etk (I, I, st) p =
      some (I.set p (halfBest val pe (List.range M.toNat) (ninf, -1)).2, I.set p (halfBest val pe (List.range M.toNat) (ninf, -1)).2, st') := by
  obtain ⟨st1, g1, g2, g3⟩ := storeInference_good hac hso hS hne he hpe
  have g4 := storeInference_other hS he.2.1 g1 hj
  obtain ⟨st2, inst, k1, k2, k3, k4⟩ := halfBest_loop hac hso hS hne (p := p) (jtk := jtk) (etk := etk) (pe := pe) (J := I) (val := val) (List.range M.toNat)
    ⟨st1, I, ninf, -1⟩ g4 g2 (fun v => rfl) (fun j hj => hv j (by rw [List.mem_range] at hj; omega))
  refine ⟨st2, k1, k2, ?_⟩
  unfold halfPixelStep
  simp only [g1, g3, Option.bind_some, Option.getD_some, k4, Option.map_some, k3]

theorem sub_fin_cases {x : XR} (h : IsLogProb x) (r : ℝ) : (x = .ninf ∧ (sub x (.fin r) : XR) = .ninf) ∨ ∃ a, x = .fin a ∧ (sub x (.fin r) : XR) = .fin (a - r) := by
  rcases IsLogProb.cases h with rfl | ⟨a, rfl⟩
  · left; exact ⟨rfl, by simp [XR.sub, XR.neg, XR.add]⟩
  · right; exact ⟨a, rfl, by simp⟩

/-- With exact numbers, the comparison finds the first of the most probable values, if one is possible at all. -/
theorem halfBest_spec {val : Nat → XR} (r : ℝ) (n : Nat) (h : ∀ j < n, IsLogProb (val j)) :
    (halfBest val (.fin r) (List.range n) (ninf, -1) = (.ninf, -1) ∧ ∀ j < n, unlog (val j) = 0) ∨
    ∃ p, FirstBest val n p ∧ 0 < unlog (val p) ∧ halfBest val (.fin r) (List.range n) (ninf, -1) = (sub (val p) (.fin r), (p : Int)) := by
  induction n with
  | zero => left; exact ⟨rfl, by simp⟩
  | succ n ih =>
    have hfold : halfBest val (.fin r) (List.range (n + 1)) (ninf, -1) =
        (fun acc : XR × Int => if lt acc.1 (sub (val n) (.fin r)) then (sub (val n) (.fin r), (n : Int)) else acc) (halfBest val (.fin r) (List.range n) (ninf, -1)) := by
      unfold halfBest
      rw [List.range_succ, List.foldl_append]
      rfl
    rw [hfold]
    beta_reduce
    rcases ih fun j hj => h j (by omega) with ⟨h1, h2⟩ | ⟨p, ⟨p1, p2, p3⟩, hpos, hp⟩
    · rw [h1]
      rcases sub_fin_cases (h n (by omega)) r with ⟨e1, e2⟩ | ⟨a, e1, e2⟩
      · left
        refine ⟨by rw [e2]; simp [XR.lt], ?_⟩
        intro j hj
        by_cases e : j = n
        · subst e; rw [e1]; rfl
        · exact h2 j (by omega)
      · right
        have hpos : 0 < unlog (val n) := by rw [e1]; exact Real.exp_pos a
        refine ⟨n, ⟨by omega, ?_, ?_⟩, hpos, by rw [e2]; simp [XR.lt]⟩
        · intro j hj
          by_cases e : j = n
          · subst e; exact le_refl _
          · rw [h2 j (by omega)]; exact hpos.le
        · intro j hj; rw [h2 j hj]; exact hpos
    · right
      rw [hp]
      rcases sub_fin_cases (h p (by omega)) r with ⟨e1, _⟩ | ⟨b, f1, f2⟩
      · rw [e1] at hpos; simp [unlog] at hpos
      rcases sub_fin_cases (h n (by omega)) r with ⟨e1, e2⟩ | ⟨a, e1, e2⟩
      · refine ⟨p, ⟨by omega, ?_, p3⟩, hpos, by rw [e2, f2]; simp [XR.lt]⟩
        intro j hj
        by_cases e : j = n
        · subst e; rw [e1]; exact hpos.le
        · exact p2 j (by omega)
      · by_cases hlt : b < a
        · have hl : unlog (val p) < unlog (val n) := by rw [e1, f1]; exact Real.exp_lt_exp.2 hlt
          refine ⟨n, ⟨by omega, ?_, fun j hj => (p2 j hj).trans_lt hl⟩, hpos.trans hl, by rw [e2, f2]; simp [XR.lt, hlt]⟩
          intro j hj
          by_cases e : j = n
          · subst e; exact le_refl _
          · exact (p2 j (by omega)).trans hl.le
        · refine ⟨p, ⟨by omega, ?_, p3⟩, hpos, by rw [e2, f2]; simp [XR.lt, hlt]⟩
          intro j hj
          by_cases e : j = n
          · subst e; rw [e1, f1]; exact Real.exp_le_exp.2 (not_lt.1 hlt)
          · exact p2 j (by omega)

/-- One pixel with exact numbers. -/
theorem halfPixelStep_best {N : Net ι XR} {S : ι} {dom : Int → Finset Int} (hac : Acyclic N.ch) (hso : SiblingOrdered N.ch S) (hS : N.ch S ≠ [])
    (hne : ∀ n cs w, N.kind n = .sum cs w → cs ≠ []) (hcomp : IsComplete N S) (hdec : IsDecomposable N S) (hw : NonnegWeights N S) (hl : DiscreteLeaves N S dom)
    {M p jtk etk : Int} (hM : 0 < M) (hdom : InScope N S p → ∀ x, x ∈ dom p ↔ 0 ≤ x ∧ x < M) {I : VarSet} (hdm : InDomain N S (fun v => (dom v : Set Int)) I) (hI : I p = none)
    (hpos : 0 < N.prob I S) {st : Storer ι XR} (hj : GoodAt jtk st) (he : GoodAt etk st) :
    ∃ x st', GoodAt jtk st' ∧ GoodAt etk st' ∧ halfPixelStep N S M jtk etk (I, I, st) p = some (given I p x, given I p x, st') ∧ MostProbable N S M I p x ∧
      InDomain N S (fun v => (dom v : Set Int)) (given I p x) ∧ 0 < N.prob (given I p x) S := by
  have hset : ∀ x, 0 ≤ x → x < M → InDomain N S (fun v => (dom v : Set Int)) (given I p x) := by
    intro x h0 h1 v hv u hu
    by_cases e : v = p
    · subst e
      simp only [given, Function.update_self, Option.some.injEq] at hu
      subst hu
      exact (hdom hv x).2 ⟨h0, h1⟩
    · rw [given, Function.update_of_ne e] at hu
      exact hdm v hv u hu
  obtain ⟨pe, hpe, hpl⟩ := Net.value_ok hac hw (discrete_eval hl hdm) S Relation.ReflTransGen.refl
  have hval : ∀ j : Nat, (j : Int) < M → ∃ x, N.value (I.set p (j : Int)) S = some x ∧ IsLogProb x := by
    intro j hj
    rw [set_eq_given]
    exact Net.value_ok hac hw (discrete_eval hl (hset j (by omega) hj)) S Relation.ReflTransGen.refl
  let val : Nat → XR := fun j => (N.value (I.set p (j : Int)) S).getD .nan
  have hvj : ∀ j : Nat, (j : Int) < M → N.value (I.set p (j : Int)) S = some (val j) ∧ IsLogProb (val j) ∧ N.prob (given I p (j : Int)) S = unlog (val j) := by
    intro j hj
    obtain ⟨x, e1, e2⟩ := hval j hj
    have : val j = x := by simp [val, e1]
    rw [this]
    refine ⟨e1, e2, ?_⟩
    rw [← set_eq_given]
    simp [Net.prob, e1]
  have hpe' : N.prob I S = unlog pe := by simp [Net.prob, hpe]
  obtain ⟨r, rfl⟩ : ∃ r, pe = .fin r := by
    rcases IsLogProb.cases hpl with rfl | h
    · rw [hpe'] at hpos; simp [unlog] at hpos
    · exact h
  obtain ⟨st', k1, k2, k3⟩ := halfPixelStep_eq hac hso hS hne hj he hpe (fun j hj => (hvj j hj).1)
  have hsome : ∃ j : Nat, (j : Int) < M ∧ 0 < unlog (val j) := by
    by_cases hp : InScope N S p
    · have hm := Net.prob_marginal hac hcomp hdec hw hl hdm hI S Relation.ReflTransGen.refl hp
      rw [hm] at hpos
      obtain ⟨x, hx, hx0⟩ := Finset.exists_lt_of_sum_lt (s := dom p) (f := fun _ => (0 : ℝ)) (by simpa using hpos)
      obtain ⟨a, b⟩ := (hdom hp x).1 hx
      refine ⟨x.toNat, by omega, ?_⟩
      rw [← (hvj x.toNat (by omega)).2.2, Int.toNat_of_nonneg a]
      exact hx0
    · refine ⟨0, by simpa using hM, ?_⟩
      rw [← (hvj 0 (by simpa using hM)).2.2]
      rw [Net.prob_congr hac (J := I)]
      · exact hpos
      · intro v hv
        rw [given, Function.update_of_ne]
        rintro rfl
        exact hp hv
  rcases halfBest_spec (val := val) r M.toNat (fun j hj => (hvj j (by omega)).2.1) with ⟨_, h0⟩ | ⟨k, ⟨q1, q2, q3⟩, hkpos, hk⟩
  · obtain ⟨j, hj1, hj2⟩ := hsome
    rw [h0 j (by omega)] at hj2
    exact absurd hj2 (lt_irrefl _)
  · rw [hk] at k3
    simp only [set_eq_given] at k3
    refine ⟨(k : Int), st', k1, k2, k3, ⟨⟨by omega, by omega⟩, ?_, ?_⟩, hset _ (by omega) (by omega), ?_⟩
    · intro u h0 h1
      have := q2 u.toNat (by omega)
      rw [← (hvj u.toNat (by omega)).2.2, ← (hvj k (by omega)).2.2, Int.toNat_of_nonneg h0] at this
      exact div_le_div_of_nonneg_right this hpos.le
    · intro u h0 h1
      have := q3 u.toNat (by omega)
      rw [← (hvj u.toNat (by omega)).2.2, ← (hvj k (by omega)).2.2, Int.toNat_of_nonneg h0] at this
      exact div_lt_div_of_pos_right this hpos
    · rw [(hvj k (by omega)).2.2]; exact hkpos

theorem halfPixels_greedy {N : Net ι XR} {S : ι} {dom : Int → Finset Int} (hac : Acyclic N.ch) (hso : SiblingOrdered N.ch S) (hS : N.ch S ≠ [])
    (hne : ∀ n cs w, N.kind n = .sum cs w → cs ≠ []) (hcomp : IsComplete N S) (hdec : IsDecomposable N S) (hw : NonnegWeights N S) (hl : DiscreteLeaves N S dom)
    {M jtk etk : Int} (hM : 0 < M) : ∀ (ps : List Int), ps.Nodup → (∀ p ∈ ps, InScope N S p → ∀ x, x ∈ dom p ↔ 0 ≤ x ∧ x < M) → ∀ (I : VarSet),
    InDomain N S (fun v => (dom v : Set Int)) I → (∀ p ∈ ps, I p = none) → 0 < N.prob I S → ∀ (st : Storer ι XR), GoodAt jtk st → GoodAt etk st →
    ∃ Y J st', ps.foldlM (halfPixelStep N S M jtk etk) (I, I, st) = some (Y, J, st') ∧ Greedy N S M I ps Y ∧ 0 < N.prob Y S := by
  intro ps
  induction ps with
  | nil => intro _ _ I _ _ hpos st _ _; exact ⟨I, I, st, rfl, .nil I, hpos⟩
  | cons p ps ih =>
    intro hnd hdom I hdm hI hpos st hj he
    rw [List.nodup_cons] at hnd
    obtain ⟨x, st1, k1, k2, k3, k4, k5, k6⟩ := halfPixelStep_best hac hso hS hne hcomp hdec hw hl hM (hdom p (by simp)) hdm (hI p (by simp)) hpos hj he
    obtain ⟨Y, J, st2, q1, q2, q3⟩ := ih hnd.2 (fun q hq => hdom q (by simp [hq])) (given I p x) k5 (fun q hq => by
      rw [given, Function.update_of_ne (by rintro rfl; exact hnd.1 hq)]; exact hI q (by simp [hq])) k6 st1 k1 k2
    refine ⟨Y, J, st2, ?_, .cons k4 q2, q3⟩
    rw [List.foldlM_cons, k3]
    exact q1

theorem pixel_inj {W x y x' y' : Nat} (hx : x < W) (hx' : x' < W) (h : (x : Int) + (y : Int) * (W : Int) = (x' : Int) + (y' : Int) * (W : Int)) : x = x' ∧ y = y' := by
  have h1 : x + y * W = x' + y' * W := by exact_mod_cast h
  have hm : (x + y * W) % W = (x' + y' * W) % W := by rw [h1]
  rw [Nat.add_mul_mod_self_right, Nat.add_mul_mod_self_right, Nat.mod_eq_of_lt hx, Nat.mod_eq_of_lt hx'] at hm
  subst hm
  refine ⟨rfl, ?_⟩
  have : y * W = y' * W := by omega
  exact Nat.eq_of_mul_eq_mul_right (by omega) this

/-- C112: the pixels completed are those of the left half, from the middle to the left, each column from the bottom up. -/
theorem C112_order (W H : Nat) : LeftHalf W H (halfPixels W H) := by
  have hW : ((W : Int).tdiv 2).toNat = W / 2 := by
    rw [Int.tdiv_eq_ediv_of_nonneg (by omega)]; omega
  have hlt : ∀ x, x < W / 2 → x < W := by intro x h; omega
  have hord : (halfPixels W H).Pairwise fun p q => ∀ x y x' y' : Nat, x < W / 2 → x' < W / 2 → p = (x : Int) + (y : Int) * (W : Int) → q = (x' : Int) + (y' : Int) * (W : Int) →
      x' < x ∨ (x' = x ∧ y' < y) := by
    unfold halfPixels
    rw [hW, Int.toNat_natCast, List.pairwise_flatMap]
    constructor
    · intro a ha
      rw [List.mem_reverse, List.mem_range] at ha
      rw [List.pairwise_map, List.pairwise_reverse]
      refine (List.pairwise_lt_range).imp ?_
      intro u v huv x y x' y' hx hx' e1 e2
      obtain ⟨rfl, rfl⟩ := pixel_inj (hlt _ ha) (hlt _ hx) e1
      obtain ⟨rfl, rfl⟩ := pixel_inj (hlt _ ha) (hlt _ hx') e2
      exact Or.inr ⟨rfl, huv⟩
    · rw [List.pairwise_reverse]
      refine List.Pairwise.imp_of_mem ?_ (List.pairwise_lt_range (n := W / 2))
      intro a b ha hb hab p hp q hq x y x' y' hx hx' e1 e2
      rw [List.mem_range] at ha hb
      obtain ⟨c, _, rfl⟩ := List.mem_map.1 hp
      obtain ⟨d, _, rfl⟩ := List.mem_map.1 hq
      obtain ⟨rfl, rfl⟩ := pixel_inj (hlt _ hb) (hlt _ hx) e1
      obtain ⟨rfl, rfl⟩ := pixel_inj (hlt _ ha) (hlt _ hx') e2
      exact Or.inl hab
  have hmem : ∀ p, p ∈ halfPixels W H ↔ ∃ x y : Nat, x < W / 2 ∧ y < H ∧ p = (x : Int) + (y : Int) * (W : Int) := by
    intro p
    unfold halfPixels
    rw [hW, Int.toNat_natCast]
    simp only [List.mem_flatMap, List.mem_reverse, List.mem_range, List.mem_map]
    constructor
    · rintro ⟨x, hx, y, hy, rfl⟩; exact ⟨x, y, hx, hy, rfl⟩
    · rintro ⟨x, y, hx, hy, rfl⟩; exact ⟨x, hx, y, hy, rfl⟩
  refine ⟨?_, hmem, hord⟩
  refine List.Pairwise.imp_of_mem ?_ hord
  intro a b ha hb hab e
  subst e
  obtain ⟨x, y, hx, hy, e⟩ := (hmem a).1 ha
  have := hab x y x y hx hx e e
  omega

theorem Spec.Greedy.frame {N : Net ι XR} {S : ι} {M : Int} {I Y : VarSet} {ps : List Int} (h : Greedy N S M I ps Y) : ∀ v, v ∉ ps → Y v = I v := by
  induction h with
  | nil I => intro v _; rfl
  | @cons I Y p x ps _ _ ih =>
    intro v hv
    simp only [List.mem_cons, not_or] at hv
    rw [ih v hv.2, given, Function.update_of_ne hv.1]

theorem Spec.Greedy.range {N : Net ι XR} {S : ι} {M : Int} {I Y : VarSet} {ps : List Int} (h : Greedy N S M I ps Y) : ∀ p ∈ ps, ∃ x, Y p = some x ∧ 0 ≤ x ∧ x < M := by
  induction h with
  | nil I => intro v hv; simp at hv
  | @cons I Y p x ps hb hg ih =>
    intro v hv
    by_cases hps : v ∈ ps
    · exact ih v hps
    · obtain rfl : v = p := by simpa [hps] using hv
      exact ⟨x, by rw [hg.frame v hps, given, Function.update_self], hb.range⟩

/-- C112, part: in a discrete network whose pixels of the left half, if in its scope, have the values below `sys.Max`, evidence of positive probability without the left half
is completed pixel by pixel with the most probable value given what is there. The rest of the image is unchanged and the result is possible. What is missing is that the left
half found is the most probable one as a whole (`C112_refuted`). -/
theorem C112_greedy_partial (N : Net ι XR) (S : ι) (dom : Int → Finset Int) (hac : Acyclic N.ch) (hso : SiblingOrdered N.ch S) (hS : N.ch S ≠ [])
    (hne : ∀ n cs w, N.kind n = .sum cs w → cs ≠ []) (hcomp : IsComplete N S) (hdec : IsDecomposable N S) (hw : NonnegWeights N S) (hl : DiscreteLeaves N S dom)
    (W H : Nat) (M : Int) (hM : 0 < M) (ps : List Int) (hps : LeftHalf W H ps) (hdom : ∀ p ∈ ps, InScope N S p → ∀ x, x ∈ dom p ↔ 0 ≤ x ∧ x < M) (E : VarSet)
    (hE : InDomain N S (fun v => (dom v : Set Int)) E) (hnone : ∀ p ∈ ps, E p = none) (hpos : 0 < N.prob E S) :
    ∃ Y, completeHalfExact N S E W H M = some Y ∧ Greedy N S M E (halfPixels W H) Y ∧ (∀ v, v ∉ ps → Y v = E v) ∧ (∀ p ∈ ps, ∃ x, Y p = some x ∧ 0 ≤ x ∧ x < M) ∧ 0 < N.prob Y S := by
  have hlh := C112_order W H
  have hmem : ∀ p, p ∈ halfPixels W H ↔ p ∈ ps := fun p => by rw [hlh.mem, hps.mem]
  have h1 := goodAt_new (ι := ι) (F := XR)
  have hj : GoodAt (Storer.new : Storer ι XR).newTicket.1 (Storer.new : Storer ι XR).newTicket.2.newTicket.2 :=
    ⟨Storer.newTicket_wf h1.1, h1.2.1, by simp [Storer.newTicket, Storer.makeAt, Storer.table, Storer.new]⟩
  have he : GoodAt (Storer.new : Storer ι XR).newTicket.2.newTicket.1 (Storer.new : Storer ι XR).newTicket.2.newTicket.2 :=
    ⟨Storer.newTicket_wf h1.1, by simp [Storer.newTicket, Storer.makeAt, Storer.new], by simp [Storer.newTicket, Storer.makeAt, Storer.table, Storer.new]⟩
  obtain ⟨Y, J, st', q1, q2, q3⟩ := halfPixels_greedy hac hso hS hne hcomp hdec hw hl hM (halfPixels W H) hlh.nodup (fun p hp => hdom p ((hmem p).1 hp)) E hE
    (fun p hp => hnone p ((hmem p).1 hp)) hpos _ hj he
  refine ⟨Y, ?_, q2, fun v hv => q2.frame v (fun h => hv ((hmem v).1 h)), fun p hp => q2.range p ((hmem p).2 hp), q3⟩
  unfold completeHalfExact
  simp only [q1, Option.map_some]

theorem halfBest_none {val : Nat → XR} {pe : XR} (hpe : IsLogProb pe) : ∀ (js : List Nat), (∀ j ∈ js, val j = .ninf) → halfBest val pe js (ninf, -1) = (ninf, -1) := by
  intro js
  induction js with
  | nil => intro _; rfl
  | cons j js ih =>
    intro h
    have : lt (ninf : XR) (sub (val j) pe) = false := by
      rw [h j (by simp)]
      rcases IsLogProb.cases hpe with rfl | ⟨r, rfl⟩ <;> rfl
    unfold halfBest
    rw [List.foldl_cons]
    simp only [this]
    exact ih fun i hi => h i (by simp [hi])

/-- C112 fails if no value below `sys.Max` is possible, whether because the evidence is impossible or because only the value `sys.Max` itself ("the maximum pixel value the
images can have") is possible: the pixel gets the value -1. For an image of two pixels, of which one is completed. -/
theorem C112_minus_one (N : Net ι XR) (S : ι) (dom : Int → Finset Int) (hac : Acyclic N.ch) (hso : SiblingOrdered N.ch S) (hS : N.ch S ≠ [])
    (hne : ∀ n cs w, N.kind n = .sum cs w → cs ≠ []) (hw : NonnegWeights N S) (hl : DiscreteLeaves N S dom) (M : Int)
    (hdom : InScope N S 0 → ∀ x, 0 ≤ x → x < M → x ∈ dom 0) (E : VarSet) (hE : InDomain N S (fun v => (dom v : Set Int)) E)
    (himp : ∀ x, 0 ≤ x → x < M → N.prob (given E 0 x) S = 0) : completeHalfExact N S E 2 1 M = some (given E 0 (-1)) := by
  have h1 := goodAt_new (ι := ι) (F := XR)
  have hj : GoodAt (Storer.new : Storer ι XR).newTicket.1 (Storer.new : Storer ι XR).newTicket.2.newTicket.2 :=
    ⟨Storer.newTicket_wf h1.1, h1.2.1, by simp [Storer.newTicket, Storer.makeAt, Storer.table, Storer.new]⟩
  have he : GoodAt (Storer.new : Storer ι XR).newTicket.2.newTicket.1 (Storer.new : Storer ι XR).newTicket.2.newTicket.2 :=
    ⟨Storer.newTicket_wf h1.1, by simp [Storer.newTicket, Storer.makeAt, Storer.new], by simp [Storer.newTicket, Storer.makeAt, Storer.table, Storer.new]⟩
  obtain ⟨pe, hpe, hpl⟩ := Net.value_ok hac hw (discrete_eval hl hE) S Relation.ReflTransGen.refl
  have hv : ∀ j : Nat, (j : Int) < M → N.value (E.set 0 (j : Int)) S = some .ninf := by
    intro j hj
    have hd : InDomain N S (fun v => (dom v : Set Int)) (given E 0 (j : Int)) := by
      intro v hv u hu
      by_cases e : v = 0
      · subst e
        simp only [given, Function.update_self, Option.some.injEq] at hu
        subst hu
        exact hdom hv _ (by omega) hj
      · rw [given, Function.update_of_ne e] at hu
        exact hE v hv u hu
    obtain ⟨x, e1, e2⟩ := Net.value_ok hac hw (discrete_eval hl hd) S Relation.ReflTransGen.refl
    have := himp j (by omega) hj
    rw [set_eq_given, e1]
    rcases IsLogProb.cases e2 with rfl | ⟨r, rfl⟩
    · rfl
    · simp only [Net.prob, e1, Option.map_some, Option.getD_some, unlog] at this
      exact absurd this (Real.exp_pos r).ne'
  obtain ⟨st', _, _, k3⟩ := halfPixelStep_eq hac hso hS hne hj he hpe hv
  have hp : halfPixels 2 1 = [0] := by decide
  unfold completeHalfExact
  simp only [hp, List.foldlM_cons, List.foldlM_nil, k3, Option.pure_def, Option.bind_eq_bind, Option.bind_some, Option.map_some]
  rw [halfBest_none hpl _ (fun j _ => rfl), set_eq_given]

/-- A mixture over two pixels: with probability 2/5 both are 0, and otherwise pixel 1 is 1 and pixel 0 is a coin. -/
noncomputable def greedyNet : Net (Fin 7) XR := ⟨![.sum [1, 2] [.fin (2 / 5), .fin (3 / 5)], .product [3, 4], .product [5, 6], .leaf (.indicator 1 0), .leaf (.indicator 0 0),
  .leaf (.indicator 1 1), .leaf (.multinomial [0] 0 [.fin (1 / 2), .fin (1 / 2)] 0 (.fin (1 / 2)))]⟩

theorem greedyNet_rank (u v : Fin 7) (h : v ∈ greedyNet.ch u) : (![2, 1, 1, 0, 0, 0, 0] : Fin 7 → Nat) v + 1 = (![2, 1, 1, 0, 0, 0, 0] : Fin 7 → Nat) u := by
  fin_cases u <;> simp [greedyNet, Net.ch] at h <;> (try rcases h with rfl | rfl) <;> simp

theorem greedyNet_acyclic : Acyclic greedyNet.ch := ⟨![2, 1, 1, 0, 0, 0, 0], fun u v h => by have := greedyNet_rank u v h; omega⟩

theorem greedyNet_siblings : SiblingOrdered greedyNet.ch 0 := siblingOrdered_of_rank _ greedyNet_rank

theorem greedyNet_scope (v : Int) : (InScope greedyNet 1 v ↔ v = 0 ∨ v = 1) ∧ (InScope greedyNet 2 v ↔ v = 0 ∨ v = 1) := by
  have h1 : greedyNet.ch 1 = [3, 4] := rfl
  have h2 : greedyNet.ch 2 = [5, 6] := rfl
  have h3 : InScope greedyNet 3 v ↔ _ := InScope.of_leaf (N := greedyNet) (n := 3) rfl
  have h4 : InScope greedyNet 4 v ↔ _ := InScope.of_leaf (N := greedyNet) (n := 4) rfl
  have h5 : InScope greedyNet 5 v ↔ _ := InScope.of_leaf (N := greedyNet) (n := 5) rfl
  have h6 : InScope greedyNet 6 v ↔ _ := InScope.of_leaf (N := greedyNet) (n := 6) rfl
  constructor
  · rw [InScope.of_node (by intro l h; cases h)]
    simp only [h1, h3, h4, leafVar, List.mem_cons, List.not_mem_nil, or_false, exists_eq_or_imp, exists_eq_left]
    omega
  · rw [InScope.of_node (by intro l h; cases h)]
    simp only [h2, h5, h6, leafVar, List.mem_cons, List.not_mem_nil, or_false, exists_eq_or_imp, exists_eq_left]
    omega

theorem greedyNet_complete : IsComplete greedyNet 0 := by
  intro n _ cs w hk c hc d hd v h
  fin_cases n <;> simp [greedyNet] at hk
  obtain ⟨rfl, rfl⟩ := hk
  simp at hc hd
  rcases hc with rfl | rfl <;> rcases hd with rfl | rfl <;> simp_all [greedyNet_scope]

theorem greedyNet_decomposable : IsDecomposable greedyNet 0 := by
  intro n _ cs hk
  fin_cases n <;> simp [greedyNet] at hk <;> subst hk
  · have h3 := fun v => InScope.of_leaf (N := greedyNet) (n := 3) (v := v) rfl
    have h4 := fun v => InScope.of_leaf (N := greedyNet) (n := 4) (v := v) rfl
    simp [h3, h4, leafVar]
  · have h3 := fun v => InScope.of_leaf (N := greedyNet) (n := 5) (v := v) rfl
    have h4 := fun v => InScope.of_leaf (N := greedyNet) (n := 6) (v := v) rfl
    simp [h3, h4, leafVar]

theorem greedyNet_weights : DistWeights greedyNet 0 := by
  intro n _ cs w hk
  fin_cases n <;> simp [greedyNet] at hk
  obtain ⟨rfl, rfl⟩ := hk
  exact ⟨[2 / 5, 3 / 5], by simp, by simp, by norm_num, by norm_num⟩

theorem greedyNet_discrete : DiscreteLeaves greedyNet 0 (fun _ => {0, 1}) := by
  intro n l _ hk
  fin_cases n <;> simp [greedyNet] at hk <;> subst hk
  · simp [DiscreteLeaf]
  · simp [DiscreteLeaf]
  · simp [DiscreteLeaf]
  · exact ⟨[1 / 2, 1 / 2], by simp, by norm_num, by norm_num, fun x => by simp; omega⟩

theorem greedyNet_sums : ∀ n cs w, greedyNet.kind n = .sum cs w → cs ≠ [] := by
  intro n cs w hk
  fin_cases n <;> simp [greedyNet] at hk
  rw [← hk.1]; simp

theorem greedyNet_prob (I : VarSet) (hI : InDomain greedyNet 0 (fun _ => (({0, 1} : Finset Int) : Set Int)) I) :
    greedyNet.prob I 0 = 2 / 5 * (greedyNet.prob I 3 * greedyNet.prob I 4) + 3 / 5 * (greedyNet.prob I 5 * greedyNet.prob I 6) := by
  have hl := discrete_eval greedyNet_discrete hI
  have r1 : Reach greedyNet.ch 0 1 := Relation.ReflTransGen.single (by simp [greedyNet, Net.ch])
  have r2 : Reach greedyNet.ch 0 2 := Relation.ReflTransGen.single (by simp [greedyNet, Net.ch])
  have h0 := (Net.prob_spec greedyNet_acyclic greedyNet_weights.nonneg hl Relation.ReflTransGen.refl).2.2 [1, 2] [2 / 5, 3 / 5] rfl
  have h1 := (Net.prob_spec greedyNet_acyclic greedyNet_weights.nonneg hl r1).2.1 [3, 4] rfl
  have h2 := (Net.prob_spec greedyNet_acyclic greedyNet_weights.nonneg hl r2).2.1 [5, 6] rfl
  rw [h0]
  simp only [List.map_cons, List.map_nil, h1, h2, wsum]
  simp

theorem half_prob_leaf {N : Net ι XR} (hac : Acyclic N.ch) (I : VarSet) {n : ι} {l : Leaf XR} (h : N.kind n = .leaf l) : N.prob I n = ((l.value I).map unlog).getD 0 := by
  unfold Net.prob
  rw [Net.value_unfold hac]
  simp [Net.valueStep, h]

theorem greedyNet_leaves (I : VarSet) :
    greedyNet.prob I 3 = (match I 1 with | none => 1 | some x => if x = 0 then 1 else 0) ∧ greedyNet.prob I 4 = (match I 0 with | none => 1 | some x => if x = 0 then 1 else 0) ∧
    greedyNet.prob I 5 = (match I 1 with | none => 1 | some x => if x = 1 then 1 else 0) ∧
    greedyNet.prob I 6 = (match I 0 with | none => 1 | some x => if x = 0 then 1 / 2 else if x = 1 then 1 / 2 else 0) := by
  rw [half_prob_leaf greedyNet_acyclic I (n := 3) (l := .indicator 1 0) rfl, half_prob_leaf greedyNet_acyclic I (n := 4) (l := .indicator 0 0) rfl,
    half_prob_leaf greedyNet_acyclic I (n := 5) (l := .indicator 1 1) rfl, half_prob_leaf greedyNet_acyclic I (n := 6) (l := .multinomial [0] 0 [.fin (1 / 2), .fin (1 / 2)] 0 (.fin (1 / 2))) rfl]
  refine ⟨?_, ?_, ?_, ?_⟩
  · simp only [Leaf.value]
    cases I 1 with
    | none => simp [unlog]
    | some x => by_cases h : x = 0 <;> simp [h, unlog]
  · simp only [Leaf.value]
    cases I 0 with
    | none => simp [unlog]
    | some x => by_cases h : x = 0 <;> simp [h, unlog]
  · simp only [Leaf.value]
    cases I 1 with
    | none => simp [unlog]
    | some x => by_cases h : x = 1 <;> simp [h, unlog]
  · simp only [Leaf.value]
    cases I 0 with
    | none => simp [unlog]
    | some x =>
      by_cases h : x = 0
      · subst h; simp [goIdx, unlog, XR.log, Real.exp_neg, Real.exp_log]
      · by_cases h1 : x = 1
        · subst h1; simp [goIdx, unlog, XR.log, Real.exp_neg, Real.exp_log]
        · have : goIdx [XR.fin (1 / 2), XR.fin (1 / 2)] x = none := by
            unfold goIdx
            split
            · rfl
            · rw [List.getElem?_eq_none]; simp; omega
          simp only [this]; simp [h, h1]

/-- C112 fails as a statement about the most probable completion: of an image of four pixels in a row, the left half completed has probability 3/10, another has 2/5. -/
theorem C112_refuted : ∃ Y, completeHalfExact greedyNet 0 (fun _ => none) 4 1 2 = some Y ∧ greedyNet.prob Y 0 = 3 / 10 ∧
    greedyNet.prob (given (given (fun _ => none) 1 0) 0 0) 0 = 2 / 5 := by
  have hp : halfPixels 4 1 = [1, 0] := by decide
  have hlh := C112_order 4 1
  have hdm : ∀ I : VarSet, (∀ v x, I v = some x → x = 0 ∨ x = 1) → InDomain greedyNet 0 (fun _ => (({0, 1} : Finset Int) : Set Int)) I := by
    intro I h v _ x hx
    simpa using h v x hx
  have hprob : ∀ I : VarSet, (∀ v x, I v = some x → x = 0 ∨ x = 1) → greedyNet.prob I 0 =
      2 / 5 * ((match I 1 with | none => 1 | some x => if x = 0 then 1 else 0) * (match I 0 with | none => 1 | some x => if x = 0 then 1 else 0)) +
      3 / 5 * ((match I 1 with | none => 1 | some x => if x = 1 then 1 else 0) * (match I 0 with | none => 1 | some x => if x = 0 then 1 / 2 else if x = 1 then 1 / 2 else 0)) := by
    intro I h
    obtain ⟨a, b, c, d⟩ := greedyNet_leaves I
    rw [greedyNet_prob I (hdm I h), a, b, c, d]
  have h1 : ∀ a : Int, a = 0 ∨ a = 1 → ∀ v x, given (fun _ => none) 1 a v = some x → x = 0 ∨ x = 1 := by
    intro a ha v x hx
    by_cases e : v = 1
    · subst e; simp [given] at hx; omega
    · simp [given, e] at hx
  have h2 : ∀ a b : Int, a = 0 ∨ a = 1 → b = 0 ∨ b = 1 → ∀ v x, given (given (fun _ => none) 1 a) 0 b v = some x → x = 0 ∨ x = 1 := by
    intro a b ha hb v x hx
    by_cases e : v = 0
    · subst e; simp [given] at hx; omega
    · rw [given, Function.update_of_ne e] at hx; exact h1 a ha v x hx
  have p0 : greedyNet.prob (fun _ => none) 0 = 1 := by rw [hprob _ (by simp)]; norm_num
  have p1 : ∀ a : Int, a = 0 ∨ a = 1 → greedyNet.prob (given (fun _ => none) 1 a) 0 = if a = 0 then 2 / 5 else 3 / 5 := by
    intro a ha
    rw [hprob _ (h1 a ha)]
    rcases ha with rfl | rfl <;> simp [given]
  have p2 : ∀ a b : Int, a = 0 ∨ a = 1 → b = 0 ∨ b = 1 → greedyNet.prob (given (given (fun _ => none) 1 a) 0 b) 0 = if a = 0 then (if b = 0 then 2 / 5 else 0) else 3 / 10 := by
    intro a b ha hb
    rw [hprob _ (h2 a b ha hb)]
    rcases ha with rfl | rfl <;> rcases hb with rfl | rfl <;> simp [given] <;> norm_num
  obtain ⟨Y, k1, k2, _⟩ := C112_greedy_partial greedyNet 0 (fun _ => {0, 1}) greedyNet_acyclic greedyNet_siblings (by simp [greedyNet, Net.ch]) greedyNet_sums greedyNet_complete
    greedyNet_decomposable greedyNet_weights.nonneg greedyNet_discrete 4 1 2 (by norm_num) _ hlh (by intro p _ _ x; simp; omega) (fun _ => none) (hdm _ (by simp)) (by simp)
    (by rw [p0]; norm_num)
  refine ⟨Y, k1, ?_, by rw [p2 0 0 (by simp) (by simp)]; simp⟩
  rw [show halfPixels ((4 : ℕ) : Int) ((1 : ℕ) : Int) = [1, 0] from hp] at k2
  cases k2 with
  | @cons _ _ _ x _ hx hr =>
    cases hr with
    | @cons _ _ _ y _ hy hr =>
      cases hr
      have hx' : x = 0 ∨ x = 1 := by have := hx.range; omega
      have hy' : y = 0 ∨ y = 1 := by have := hy.range; omega
      have hx1 : x = 1 := by
        rcases hx' with rfl | rfl
        · have := hx.best 1 (by norm_num) (by norm_num)
          rw [p0, p1 1 (by simp), p1 0 (by simp)] at this
          norm_num at this
        · rfl
      subst hx1
      rw [p2 1 y (by simp) hy']
      simp

example : Acyclic greedyNet.ch ∧ SiblingOrdered greedyNet.ch 0 ∧ IsComplete greedyNet 0 ∧ IsDecomposable greedyNet 0 ∧ NonnegWeights greedyNet 0 ∧
    DiscreteLeaves greedyNet 0 (fun _ => {0, 1}) ∧ LeftHalf 4 1 [1, 0] :=
  ⟨greedyNet_acyclic, greedyNet_siblings, greedyNet_complete, greedyNet_decomposable, greedyNet_weights.nonneg, greedyNet_discrete, C112_order 4 1⟩

/-- An image whose left pixel has the value 1 and whose right pixel has the value 0. -/
def maxNet : Net (Fin 3) XR := ⟨![.product [1, 2], .leaf (.indicator 0 1), .leaf (.indicator 1 0)]⟩

theorem maxNet_rank (u v : Fin 3) (h : v ∈ maxNet.ch u) : (![1, 0, 0] : Fin 3 → Nat) v + 1 = (![1, 0, 0] : Fin 3 → Nat) u := by
  fin_cases u <;> simp [maxNet, Net.ch] at h
  rcases h with rfl | rfl <;> simp

/-- C112 fails for images whose maximum pixel value is `sys.Max`, as the flag is documented: for the maximum 1, a pixel that certainly is 1 is completed with -1. -/
theorem C112_max_refuted : completeHalfExact maxNet 0 (fun _ => none) 2 1 1 = some (given (fun _ => none) 0 (-1)) ∧ maxNet.prob (given (fun _ => none) 0 1) 0 = 1 ∧
    maxNet.prob (fun _ => none) 0 = 1 := by
  have hac : Acyclic maxNet.ch := ⟨![1, 0, 0], fun u v h => by have := maxNet_rank u v h; omega⟩
  have hso : SiblingOrdered maxNet.ch 0 := siblingOrdered_of_rank _ maxNet_rank
  have hw : NonnegWeights maxNet 0 := by
    intro n _ cs w hk
    fin_cases n <;> simp [maxNet] at hk
  have hl : DiscreteLeaves maxNet 0 (fun _ => {0, 1}) := by
    intro n l _ hk
    fin_cases n <;> simp [maxNet] at hk <;> subst hk <;> simp [DiscreteLeaf]
  have hdm : ∀ I : VarSet, (∀ v x, I v = some x → x = 0 ∨ x = 1) → InDomain maxNet 0 (fun _ => (({0, 1} : Finset Int) : Set Int)) I := by
    intro I h v _ x hx
    simpa using h v x hx
  have hprob : ∀ I : VarSet, (∀ v x, I v = some x → x = 0 ∨ x = 1) → maxNet.prob I 0 =
      (match I 0 with | none => 1 | some x => if x = 1 then 1 else 0) * (match I 1 with | none => 1 | some x => if x = 0 then 1 else 0) := by
    intro I h
    have h1 := (Net.prob_spec hac hw (discrete_eval hl (hdm I h)) Relation.ReflTransGen.refl).2.1 [1, 2] rfl
    rw [h1]
    simp only [List.map_cons, List.map_nil, List.prod_cons, List.prod_nil, mul_one]
    rw [half_prob_leaf hac I (n := 1) (l := .indicator 0 1) rfl, half_prob_leaf hac I (n := 2) (l := .indicator 1 0) rfl]
    simp only [Leaf.value]
    congr 1
    · cases I 0 with
      | none => simp [unlog]
      | some x => by_cases h : x = 1 <;> simp [h, unlog]
    · cases I 1 with
      | none => simp [unlog]
      | some x => by_cases h : x = 0 <;> simp [h, unlog]
  have hg : ∀ a : Int, a = 0 ∨ a = 1 → ∀ v x, given (fun _ => none) 0 a v = some x → x = 0 ∨ x = 1 := by
    intro a ha v x hx
    by_cases e : v = 0
    · subst e; simp [given] at hx; omega
    · simp [given, e] at hx
  refine ⟨?_, ?_, ?_⟩
  · refine C112_minus_one maxNet 0 (fun _ => {0, 1}) hac hso (by simp [maxNet, Net.ch]) ?_ hw hl 1 (by intro _ x h0 h1; simp; omega) _ (hdm _ (by simp)) ?_
    · intro n cs w hk
      fin_cases n <;> simp [maxNet] at hk
    · intro x h0 h1
      obtain rfl : x = 0 := by omega
      rw [hprob _ (hg 0 (by simp))]
      simp [given]
  · rw [hprob _ (hg 1 (by simp))]
    simp [given]
  · rw [hprob _ (by simp)]
    simp

end Gospn
