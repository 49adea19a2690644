import Verif.Model.Work
import Verif.Spec.Work
import Verif.Props.Draw
import Verif.Props.Infer
import Verif.Proofs.Spn
import Verif.Proofs.TopoVariants
/-!
Property C134: the work of evaluating a network.
-/
set_option linter.unusedSectionVars false
set_option linter.unusedSimpArgs false
namespace Gospn
open Spec GoFloat

section Recursive
variable {ι F : Type} [GoFloat F] {N : Net ι F} {paths : ι → Nat}

/-- Calls on a list of nodes of which each brings a count. -/
theorem mapM_counted {α β : Type} {f : α → Option (β × Nat)} {g : α → Option β} {p : α → Nat} : ∀ {l : List α}, (∀ a ∈ l, f a = (g a).map (·, p a)) →
    l.mapM f = (l.mapM g).map fun vs => vs.zip (l.map p)
  | [], _ => rfl
  | a :: l, h => by
    rw [List.mapM_cons, List.mapM_cons, h a (by simp), mapM_counted (l := l) fun x hx => h x (by simp [hx])]
    cases g a <;> simp
    cases l.mapM g <;> simp

theorem mapM_counted_length {α β : Type} {g : α → Option β} : ∀ {l : List α} {vs : List β}, l.mapM g = some vs → vs.length = l.length
  | [], vs, h => by
    have : vs = [] := by simpa using h.symm
    simp [this]
  | a :: l, vs, h => by
    rw [List.mapM_cons] at h
    cases hg : g a with
    | none => simp [hg] at h
    | some b =>
      cases hl : l.mapM g with
      | none => simp [hg, hl] at h
      | some bs =>
        have : vs = b :: bs := by simpa [hg, hl] using h.symm
        simp [this, mapM_counted_length hl]

theorem map_fst_zip {α β : Type} : ∀ {l : List α} {m : List β}, l.length = m.length → (l.zip m).map (·.1) = l
  | [], _, _ => by simp
  | a :: l, b :: m, h => by simp [map_fst_zip (l := l) (m := m) (by simpa using h)]

theorem map_snd_zip {α β : Type} : ∀ {l : List α} {m : List β}, l.length = m.length → (l.zip m).map (·.2) = m
  | [], [], _ => by simp
  | a :: l, b :: m, h => by simp [map_snd_zip (l := l) (m := m) (by simpa using h)]

/-- C134: a call of `Value` brings as many calls of `Value` as there are paths down from the node, and the same value as without counting. -/
theorem C134_value_calls {rank : ι → Nat} (hr : ∀ u, ∀ c ∈ N.ch u, rank c < rank u) (hp : CountsPaths N paths) (I : VarSet) : ∀ fuel n, rank n < fuel →
    N.valueC I fuel n = (fuelRec (N.valueStep I) none fuel n).map (·, paths n) := by
  intro fuel
  induction fuel with
  | zero => intro n h; omega
  | succ fuel ih =>
    intro n hn
    have hc : ∀ c ∈ N.ch n, fuelRec (N.valueCStep I) none fuel c = (fuelRec (N.valueStep I) none fuel c).map (·, paths c) := by
      intro c hc
      have := hr n c hc
      exact ih c (by omega)
    show N.valueCStep I (fuelRec (N.valueCStep I) none fuel) n = (N.valueStep I (fuelRec (N.valueStep I) none fuel) n).map (·, paths n)
    rw [hp n]
    generalize fuelRec (N.valueCStep I) none fuel = fc at hc ⊢
    generalize fuelRec (N.valueStep I) none fuel = f at hc ⊢
    unfold Net.valueCStep Net.valueStep
    unfold Net.ch at hc ⊢
    cases hk : N.kind n with
    | leaf l => simp
    | sum cs w =>
      simp only [hk] at hc ⊢
      rw [mapM_counted hc]
      cases hv : cs.mapM f with
      | none => rfl
      | some vs =>
        have hl : vs.length = (cs.map paths).length := by simp [mapM_counted_length hv]
        simp only [Option.map_some, Option.bind_some, map_fst_zip hl, map_snd_zip hl]
    | product cs =>
      simp only [hk] at hc ⊢
      rw [mapM_counted hc]
      cases hv : cs.mapM f with
      | none => rfl
      | some vs =>
        have hl : vs.length = (cs.map paths).length := by simp [mapM_counted_length hv]
        simp only [Option.map_some, map_fst_zip hl, map_snd_zip hl]

/-- C134: the same for `Max`. -/
theorem C134_max_calls {rank : ι → Nat} (hr : ∀ u, ∀ c ∈ N.ch u, rank c < rank u) (hp : CountsPaths N paths) (I : VarSet) : ∀ fuel n, rank n < fuel →
    N.maxC I fuel n = (fuelRec (N.maxStep I) none fuel n).map (·, paths n) := by
  intro fuel
  induction fuel with
  | zero => intro n h; omega
  | succ fuel ih =>
    intro n hn
    have hc : ∀ c ∈ N.ch n, fuelRec (N.maxCStep I) none fuel c = (fuelRec (N.maxStep I) none fuel c).map (·, paths c) := by
      intro c hc
      have := hr n c hc
      exact ih c (by omega)
    show N.maxCStep I (fuelRec (N.maxCStep I) none fuel) n = (N.maxStep I (fuelRec (N.maxStep I) none fuel) n).map (·, paths n)
    rw [hp n]
    generalize fuelRec (N.maxCStep I) none fuel = fc at hc ⊢
    generalize fuelRec (N.maxStep I) none fuel = f at hc ⊢
    unfold Net.maxCStep Net.maxStep
    unfold Net.ch at hc ⊢
    cases hk : N.kind n with
    | leaf l => simp
    | sum cs w =>
      simp only [hk] at hc ⊢
      rw [mapM_counted hc]
      cases hv : cs.mapM f with
      | none => rfl
      | some vs =>
        have hl : vs.length = (cs.map paths).length := by simp [mapM_counted_length hv]
        simp only [Option.map_some, Option.bind_some, map_fst_zip hl, map_snd_zip hl, Option.map_map]
        rfl
    | product cs =>
      simp only [hk] at hc ⊢
      rw [mapM_counted hc]
      cases hv : cs.mapM f with
      | none => rfl
      | some vs =>
        have hl : vs.length = (cs.map paths).length := by simp [mapM_counted_length hv]
        simp only [Option.map_some, map_fst_zip hl, map_snd_zip hl]

/-- A list of results with counts, without the counts. -/
theorem mapM_uncounted {α β : Type} {f : α → Option (β × Nat)} {g : α → Option β} {p : α → Nat} : ∀ {l : List α} {rs : List (β × Nat)},
    (∀ a ∈ l, ∀ r, f a = some r → g a = some r.1 ∧ p a ≤ r.2) → l.mapM f = some rs → l.mapM g = some (rs.map (·.1)) ∧ (l.map p).sum ≤ (rs.map (·.2)).sum
  | [], rs, _, h => by
    have : rs = [] := by simpa using h.symm
    simp [this]
  | a :: l, rs, h, hm => by
    rw [List.mapM_cons] at hm
    cases hf : f a with
    | none => simp [hf] at hm
    | some b =>
      cases hl : l.mapM f with
      | none => simp [hf, hl] at hm
      | some bs =>
        have e : rs = b :: bs := by simpa [hf, hl] using hm.symm
        obtain ⟨h1, h2⟩ := h a (by simp) b hf
        obtain ⟨h3, h4⟩ := mapM_uncounted (fun x hx => h x (by simp [hx])) hl
        subst e
        refine ⟨by rw [List.mapM_cons, h1, h3]; rfl, ?_⟩
        simp only [List.map_cons, List.sum_cons]
        omega

/-- C134: a call of `ArgMax` brings at least as many calls of `Max` and `ArgMax` as there are paths down from the node, and the same result as without counting. -/
theorem C134_argMax_calls {rank : ι → Nat} (hr : ∀ u, ∀ c ∈ N.ch u, rank c < rank u) (hp : CountsPaths N paths) (I : VarSet) (m : ℕ) (hm : ∀ n, rank n < m) (n : ι)
    (r : (VarSet × F) × Nat) (h : N.argMaxC I m n = some r) : fuelRec (N.argMaxStep I (fuelRec (N.maxStep I) none m)) none m n = some r.1 ∧ paths n ≤ r.2 := by
  have key : ∀ fuel n r, fuelRec (N.argMaxCStep I (N.maxC I m)) none fuel n = some r →
      fuelRec (N.argMaxStep I (fuelRec (N.maxStep I) none m)) none fuel n = some r.1 ∧ paths n ≤ r.2 := by
    intro fuel
    induction fuel with
    | zero => intro n r h; cases h
    | succ fuel ih =>
      intro n r h
      replace h : N.argMaxCStep I (N.maxC I m) (fuelRec (N.argMaxCStep I (N.maxC I m)) none fuel) n = some r := h
      show N.argMaxStep I (fuelRec (N.maxStep I) none m) (fuelRec (N.argMaxStep I (fuelRec (N.maxStep I) none m)) none fuel) n = some r.1 ∧ _
      rw [hp n]
      have hmax : ∀ c x, N.maxC I m c = some x → fuelRec (N.maxStep I) none m c = some x.1 ∧ paths c ≤ x.2 := by
        intro c x hx
        rw [C134_max_calls hr hp I m c (hm c), Option.map_eq_some_iff] at hx
        obtain ⟨y, hy, rfl⟩ := hx
        exact ⟨hy, le_rfl⟩
      generalize fuelRec (N.argMaxCStep I (N.maxC I m)) none fuel = fc at ih h
      generalize fuelRec (N.argMaxStep I (fuelRec (N.maxStep I) none m)) none fuel = f at ih ⊢
      generalize fuelRec (N.maxStep I) none m = g at hmax ⊢
      unfold Net.argMaxCStep at h
      unfold Net.argMaxStep Net.ch
      cases hk : N.kind n with
      | leaf l =>
        simp only [hk, Option.map_eq_some_iff] at h ⊢
        obtain ⟨x, h1, rfl⟩ := h
        simp [h1]
      | sum cs w =>
        simp only [hk, Option.bind_eq_some_iff] at h ⊢
        obtain ⟨vs, h1, us, h2, h3⟩ := h
        obtain ⟨g1, g2⟩ := mapM_uncounted (fun c _ x hx => hmax c x hx) h1
        split at h3
        · cases h3
        · rename_i mch mm heq
          rw [Option.map_eq_some_iff] at h3
          obtain ⟨x, h4, rfl⟩ := h3
          obtain ⟨i1, _⟩ := ih _ _ h4
          refine ⟨⟨_, g1, us, h2, ?_⟩, ?_⟩
          · rw [heq]
            simp only [i1, Option.map_some]
          · dsimp only
            omega
      | product cs =>
        simp only [hk, Option.map_eq_some_iff] at h ⊢
        obtain ⟨rs, h1, rfl⟩ := h
        obtain ⟨g1, g2⟩ := mapM_uncounted (fun c _ x hx => ih c x hx) h1
        exact ⟨⟨_, g1, rfl⟩, by dsimp only; omega⟩
  exact key m n r h

end Recursive

/-- Values of the layers. -/
theorem layers_value (k : Nat) : ∀ fuel, 2 * k < fuel → (∃ x, fuelRec (layers.valueStep fun _ => none) none fuel (.s k) = some x) ∧ ∃ x, fuelRec (layers.maxStep fun _ => none) none fuel (.s k) = some x := by
  induction k with
  | zero =>
    intro fuel h
    obtain ⟨j, rfl⟩ : ∃ j, fuel = j + 1 := ⟨fuel - 1, by omega⟩
    exact ⟨⟨_, rfl⟩, _, rfl⟩
  | succ k ih =>
    intro fuel h
    obtain ⟨j, rfl⟩ : ∃ j, fuel = j + 1 + 1 := ⟨fuel - 2, by omega⟩
    obtain ⟨⟨x, hx⟩, y, hy⟩ := ih j (by omega)
    constructor
    · have ha : fuelRec (layers.valueStep fun _ => none) none (j + 1) (.a k) = some (prodCompute [x]) := by
        show layers.valueStep _ _ _ = _
        generalize fuelRec (layers.valueStep fun _ => none) none j = f at hx
        simp [Net.valueStep, layers, hx]
      have hb : fuelRec (layers.valueStep fun _ => none) none (j + 1) (.b k) = some (prodCompute [x]) := ha
      show ∃ x, layers.valueStep (fun _ => none) (fuelRec (layers.valueStep fun _ => none) none (j + 1)) (.s (k + 1)) = some x
      generalize fuelRec (layers.valueStep fun _ => none) none (j + 1) = f at ha hb
      simp only [Net.valueStep, layers, List.mapM_cons, List.mapM_nil, ha, hb]
      simp [weighted, logSumExp]
      split <;> exact ⟨_, rfl⟩
    · have ha : fuelRec (layers.maxStep fun _ => none) none (j + 1) (.a k) = some (prodCompute [y]) := by
        show layers.maxStep _ _ _ = _
        generalize fuelRec (layers.maxStep fun _ => none) none j = f at hy
        simp [Net.maxStep, layers, hy]
      have hb : fuelRec (layers.maxStep fun _ => none) none (j + 1) (.b k) = some (prodCompute [y]) := ha
      show ∃ x, layers.maxStep (fun _ => none) (fuelRec (layers.maxStep fun _ => none) none (j + 1)) (.s (k + 1)) = some x
      generalize fuelRec (layers.maxStep fun _ => none) none (j + 1) = f at ha hb
      simp only [Net.maxStep, layers, List.mapM_cons, List.mapM_nil, ha, hb]
      simp [weightedMax]

/-- C134 refuted for the methods that call themselves: on the layers `Value` and `Max` return, but only after more than `2 ^ k` calls for `3 k + 1` nodes. -/
theorem C134_refuted (k : Nat) :
    (∃ l : List LNode, l.length = 3 * k + 1 ∧ ∀ n, Reach layers.ch (.s k) n → n ∈ l) ∧
    ∃ m, ∀ fuel ≥ m, (∃ v calls, layers.valueC (fun _ => none) fuel (.s k) = some (v, calls) ∧ 2 ^ k ≤ calls) ∧
      ∃ v calls, layers.maxC (fun _ => none) fuel (.s k) = some (v, calls) ∧ 2 ^ k ≤ calls := by
  refine ⟨⟨layerNodes k, layerNodes_length k, layers_reach k⟩, ?_⟩
  obtain ⟨rank, hr⟩ := layers_acyclic
  obtain ⟨paths, hp⟩ : ∃ paths, CountsPaths layers paths := by
    obtain ⟨paths, hp, _⟩ := C98_dot_partial layers (.s 1) ⟨rank, hr⟩ XR_neg (layers_drawable _) (by simp [layers])
    exact ⟨paths, hp⟩
  have h2 : 2 ^ k ≤ paths (.s k) := by
    have := (layers_paths hp k).1
    have : 1 ≤ 2 ^ k := Nat.one_le_two_pow
    omega
  refine ⟨rank (.s k) + 2 * k + 1, fun fuel hf => ?_⟩
  obtain ⟨⟨x, hx⟩, y, hy⟩ := layers_value k fuel (by omega)
  refine ⟨⟨x, paths (.s k), ?_, h2⟩, y, paths (.s k), ?_, h2⟩
  · rw [C134_value_calls hr hp _ fuel _ (by omega), hx]; rfl
  · rw [C134_max_calls hr hp _ fuel _ (by omega), hy]; rfl

section Tables
variable {ι : Type} [DecidableEq ι]

/-- The work that shows in the state of `TopSortTarjan`. -/
def tarjanDone (ch : ι → List ι) (st : TarjanSt ι) : Nat := ∑ n ∈ st.P, (1 + (ch n).length) + st.C.items.length

theorem tarjanDone_step (ch : ι → List ι) (st : TarjanSt ι) : tarjanDone ch (tarjanStep ch st) = tarjanDone ch st + tarjanPasses ch st := by
  unfold tarjanStep tarjanPasses tarjanDone
  cases hS : st.S with
  | nil => simp
  | cons u rest =>
    by_cases hu : u ∈ st.P
    · simp only [hu, if_true]
      unfold Coll.give
      split <;> simp <;> omega
    · simp only [hu, if_false, not_false_iff, Finset.sum_insert]
      omega

theorem tarjanLoopC_eq (ch : ι → List ι) : ∀ fuel st, (tarjanLoopC ch fuel st).1 = tarjanLoop ch fuel st ∧ tarjanDone ch (tarjanLoop ch fuel st) = tarjanDone ch st + (tarjanLoopC ch fuel st).2 := by
  intro fuel
  induction fuel with
  | zero => intro st; exact ⟨rfl, rfl⟩
  | succ fuel ih =>
    intro st
    unfold tarjanLoopC tarjanLoop
    by_cases hS : st.S = []
    · simp [hS]
    · simp only [hS, if_false]
      obtain ⟨h1, h2⟩ := ih (tarjanStep ch st)
      refine ⟨h1, ?_⟩
      rw [h2, tarjanDone_step]
      omega

variable [Fintype ι] {F : Type} [GoFloat F]

theorem sum_reachable {ch : ι → List ι} {S : ι} {l : List ι} (h : ListsReachable ch S l) (a b : Nat) :
    (l.map fun n => a + b * (ch n).length).sum = a * nodesBelow ch S + b * linksBelow ch S := by
  classical
  have e : l.toFinset = Finset.univ.filter (Reach ch S) := by ext x; simp [h.2 x]
  rw [← List.sum_toFinset _ h.1, e, Finset.sum_add_distrib, ← Finset.mul_sum]
  unfold nodesBelow linksBelow
  simp only [Finset.sum_const, smul_eq_mul]
  rw [mul_comm a]

/-- C134: `TopSortTarjan` passes through its loops twice for every node and once for every link. -/
theorem C134_order (N : Net ι F) (S : ι) : (N.orderC S).1 = N.order S ∧ (N.orderC S).2 = 2 * nodesBelow N.ch S + linksBelow N.ch S := by
  obtain ⟨h1, h2⟩ := tarjanLoopC_eq N.ch (2 * Fintype.card ι) (tarjanInit S ⟨false, []⟩)
  have hP : ∃ out, TarjanInv N.ch S ⟨false, []⟩ (tarjanLoop N.ch (2 * Fintype.card ι) (tarjanInit S ⟨false, []⟩)) out ∧ True ∧ (tarjanLoop N.ch (2 * Fintype.card ι) (tarjanInit S ⟨false, []⟩)).S = [] :=
    tarjanLoop_induct (fun _ _ => True) (by simp) _ _ [] (tarjanInit_inv N.ch S _) trivial (by rw [tarjanMeasure_init])
  obtain ⟨out, hi, _, hS⟩ := hP
  refine ⟨by show (tarjanLoopC _ _ _).1.C.items = _; rw [h1]; rfl, ?_⟩
  show (tarjanLoopC N.ch (2 * Fintype.card ι) (tarjanInit S ⟨false, []⟩)).2 = _
  have h0 : tarjanDone N.ch (tarjanInit S ⟨false, []⟩) = 0 := by simp [tarjanDone, tarjanInit]
  rw [h0, Nat.zero_add] at h2
  rw [← h2]
  have hl := hi.final hS
  have e : (tarjanLoop N.ch (2 * Fintype.card ι) (tarjanInit S ⟨false, []⟩)).P = out.toFinset := by
    ext x
    rw [List.mem_toFinset]
    exact ⟨fun hx => by simpa [hS] using (hi.vis x).1 (hi.PV x hx), hi.outP x⟩
  unfold tarjanDone
  rw [e, hi.coll, Coll.giveAll_queue, List.sum_toFinset _ hl.1]
  have s1 := sum_reachable hl 1 1
  have s2 := sum_reachable hl 1 0
  simp only [Nat.one_mul, Nat.zero_mul, Nat.add_zero] at s1 s2
  have : out.length = nodesBelow N.ch S := by rw [← s2]; simp
  simp only [List.nil_append]
  omega

theorem order_sum (N : Net ι F) (S : ι) : ((N.order S).map fun n => 1 + (N.ch n).length).sum = nodesBelow N.ch S + linksBelow N.ch S := by
  have := sum_reachable (tarjanOrder_listsReachable N.ch S) 1 1
  simp only [Nat.one_mul] at this
  exact this

/-- C134: `Inference` is `inference` of the model, and passes through its loops three times for every node and twice for every link, whatever the number of paths. -/
theorem C134_inference_partial (N : Net ι F) (S : ι) (I : VarSet) (hS : N.ch S ≠ []) :
    N.inferenceC S I = (N.inference S I).map (·, 3 * nodesBelow N.ch S + 2 * linksBelow N.ch S) := by
  have key : ∀ (leafVal : Leaf F → Option F) (o : List ι) V, N.inferLoopC leafVal V o = (o.foldlM (N.inferStep leafVal) V).map (·, (o.map fun n => 1 + (N.ch n).length).sum) := by
    intro leafVal o
    induction o with
    | nil => intro V; rfl
    | cons s o ih =>
      intro V
      rw [List.foldlM_cons]
      unfold Net.inferLoopC
      cases h : N.inferStep leafVal V s with
      | none => rfl
      | some V' =>
        simp only [Option.bind_some, ih, Option.map_map, List.map_cons, List.sum_cons]
        rfl
  have h0 : (N.ch S).length ≠ 0 := by simpa using hS
  obtain ⟨e1, e2⟩ := C134_order N S
  unfold Net.inferenceC Net.inference
  simp only [h0, if_false, e1, e2, key, order_sum, Option.map_map]
  congr 1
  funext V
  simp only [Function.comp, Prod.mk.injEq, true_and]
  omega

/-- C134: the same for `StoreInference`, which may end early. -/
theorem C134_store_partial (N : Net ι F) (S : ι) (I : VarSet) (tk : Int) (st : Storer ι F) :
    (N.storeInferenceC S I tk st).map (·.1) = N.storeInference S I tk st ∧
    ∀ r, N.storeInferenceC S I tk st = some r → r.2 ≤ 3 * nodesBelow N.ch S + 2 * linksBelow N.ch S := by
  have key : ∀ table (o : List ι) st, (N.storeInfLoopC I table st o).map (·.1) = N.storeInfLoop I table st o ∧
      ∀ r, N.storeInfLoopC I table st o = some r → r.2 ≤ (o.map fun n => 1 + (N.ch n).length).sum := by
    intro table o
    induction o with
    | nil =>
      intro st
      refine ⟨rfl, fun r h => ?_⟩
      simp only [Net.storeInfLoopC, Option.some.injEq] at h
      subst h
      simp
    | cons s o ih =>
      intro st
      unfold Net.storeInfLoopC Net.storeInfLoop
      cases h : N.storeInfStep I table st s with
      | none => exact ⟨rfl, fun r h => by cases h⟩
      | some x =>
        obtain ⟨st', b⟩ := x
        cases b with
        | false =>
          refine ⟨rfl, fun r h => ?_⟩
          simp only [Option.some.injEq] at h
          subst h
          simp
        | true =>
          obtain ⟨i1, i2⟩ := ih st'
          refine ⟨by simp only [Option.map_map]; rw [← i1]; rfl, fun r h => ?_⟩
          simp only [Option.map_eq_some_iff] at h
          obtain ⟨x, hx, rfl⟩ := h
          have := i2 x hx
          simp only [List.map_cons, List.sum_cons]
          omega
  obtain ⟨e1, e2⟩ := C134_order N S
  unfold Net.storeInferenceC Net.storeInference
  by_cases h0 : (N.ch S).length = 0
  · simp only [h0, if_true]
    refine ⟨rfl, fun r h => ?_⟩
    simp only [Option.some.injEq] at h
    subst h
    simp
  · simp only [h0, if_false, e1, e2]
    generalize (if tk < 0 then st.newTicket else (tk, st)) = p
    obtain ⟨tk, st⟩ := p
    dsimp only
    obtain ⟨k1, k2⟩ := key (st.table tk) (N.order S) st
    rw [order_sum] at k2
    cases hx : N.storeInfLoopC I (st.table tk) st (N.order S) with
    | none => rw [hx] at k1; simp only [Option.map_none] at k1; rw [← k1]; exact ⟨rfl, fun r h => by cases h⟩
    | some x =>
      obtain ⟨⟨st', b⟩, k⟩ := x
      have := k2 _ hx
      dsimp only at this
      rw [hx] at k1
      simp only [Option.map_some] at k1
      rw [← k1]
      cases b <;> refine ⟨rfl, fun r h => ?_⟩ <;> simp only [Option.some.injEq] at h <;> subst h <;> dsimp only <;> omega

end Tables

/-- The layers are an acyclic network, and their paths are counted. -/
example : (∃ rank : LNode → Nat, ∀ u, ∀ c ∈ layers.ch u, rank c < rank u) ∧ ∃ paths, CountsPaths layers paths := by
  refine ⟨layers_acyclic, ?_⟩
  obtain ⟨paths, hp, _⟩ := C98_dot_partial layers (.s 1) layers_acyclic XR_neg (layers_drawable _) (by simp [layers])
  exact ⟨paths, hp⟩

/-- The hypotheses of `C134_argMax_calls`: a bounded rank, and a call that returns. -/
example : (∀ u, ∀ c ∈ (diamondNet [XR.fin 1, .fin 1] (.indicator 0 0)).ch u, (![2, 1, 1, 0] : Fin 4 → Nat) c < (![2, 1, 1, 0] : Fin 4 → Nat) u) ∧ (∀ n, (![2, 1, 1, 0] : Fin 4 → Nat) n < 3) ∧
    CountsPaths (diamondNet [XR.fin 1, .fin 1] (.indicator 0 0)) ![5, 2, 2, 1] ∧
    ∃ r, (diamondNet [XR.fin 1, .fin 1] (.indicator 0 0)).argMaxC (fun _ => none) 3 0 = some r := by
  refine ⟨by rw [diamondNet_ch]; decide, by decide, ?_, ?_⟩
  · intro n
    rw [diamondNet_ch]
    fin_cases n <;> rfl
  · simp [Net.argMaxC, Net.maxC, fuelRec, Net.argMaxCStep, Net.maxCStep, diamondNet, Leaf.max, Leaf.argMax, weightedMax, prodCompute, argMaxChild, XR.log, XR.add, XR.lt, GoFloat.add, GoFloat.log, GoFloat.lt, GoFloat.ninf]

/-- A root with children. -/
example (w : List XR) (l : Leaf XR) : (diamondNet w l).ch 0 ≠ [] := by simp [diamondNet, Net.ch]

end Gospn
