/-
C113: what Sc returns.
-/
import Verif.Model.Sc
import Verif.Props.Structure
import Verif.Props.Semantics

set_option linter.unusedSectionVars false
set_option linter.unusedSimpArgs false

namespace Gospn
open Spec
variable {ι F : Type} [GoFloat F] [DecidableEq ι] [Fintype ι]

/-- `m` is `n` or lies below it with only products in between. -/
inductive Spec.BelowProducts (N : Net ι F) : ι → ι → Prop
  | refl (n : ι) : BelowProducts N n n
  | step {n c m : ι} {cs : List ι} : N.kind n = .product cs → c ∈ cs → BelowProducts N c m → BelowProducts N n m

/-- A network whose nodes have not been asked for their scopes: leaves know their variable, the others know nothing. -/
def Spec.FreshScopes (N : Net ι F) (raw : ι → List Int) : Prop := ∀ n, raw n = match N.kind n with | .leaf l => [leafVar l] | _ => []

/-- The list returned, given the fields of all nodes. -/
def Net.scListStep (N : Net ι F) (raw : ι → List Int) (rec : ι → List Int) (n : ι) : List Int :=
  if raw n ≠ [] then raw n
  else match N.kind n with
    | .product cs => cs.flatMap rec
    | _ => []

def Net.scList (N : Net ι F) (raw : ι → List Int) : ι → List Int := dagRec (N.scListStep raw) []

theorem Net.scList_local (N : Net ι F) (raw : ι → List Int) : LocalStep N.ch (N.scListStep raw) := by
  intro f g n h
  unfold Net.scListStep
  split
  · rfl
  · cases hk : N.kind n with
    | leaf l => rfl
    | sum cs w => rfl
    | product cs =>
      show cs.flatMap f = cs.flatMap g
      rw [List.flatMap, List.flatMap, List.map_congr_left (fun c hc => h c (by simpa [Net.ch, hk] using hc))]

theorem Net.scList_unfold {N : Net ι F} (hac : Acyclic N.ch) (raw : ι → List Int) (n : ι) : N.scList raw n = N.scListStep raw (N.scList raw) n :=
  dagRec_unfold hac (N.scList_local raw) [] n

/-- `raw'` is `raw` with some of the missing scopes of products filled in. -/
def CachedAt (N : Net ι F) (raw raw' : ι → List Int) (m : ι) : Prop := raw' m = raw m ∨ (raw m = [] ∧ raw' m = N.scList raw m)

theorem scList_cached {N : Net ι F} (hac : Acyclic N.ch) {rank : ι → Nat} (hr : ∀ u, ∀ c ∈ N.ch u, rank c < rank u) {raw raw' : ι → List Int} :
    ∀ k n, rank n ≤ k → (∀ m, rank m ≤ k → CachedAt N raw raw' m) → N.scList raw' n = N.scList raw n := by
  intro k
  induction k with
  | zero =>
    intro n hn h
    rw [Net.scList_unfold hac, Net.scList_unfold hac]
    have hch : N.ch n = [] := by
      cases hc : N.ch n with
      | nil => rfl
      | cons c t => have := hr n c (by rw [hc]; simp); omega
    have hcat : ∀ f : ι → List Int, (match N.kind n with | .product cs => cs.flatMap f | _ => []) = [] := by
      intro f
      cases hk : N.kind n with
      | leaf l => rfl
      | sum cs w => rfl
      | product cs =>
        have : cs = [] := by simpa [Net.ch, hk] using hch
        subst this; rfl
    rcases h n hn with e | ⟨e1, e2⟩
    · unfold Net.scListStep
      rw [e, hcat, hcat]
    · have e3 : N.scList raw n = [] := by
        rw [Net.scList_unfold hac]; unfold Net.scListStep; rw [if_neg (by simp [e1]), hcat]
      rw [e3] at e2
      unfold Net.scListStep
      rw [if_neg (by simp [e2]), if_neg (by simp [e1]), hcat, hcat]
  | succ k ih =>
    intro n hn h
    have hcc : ∀ c ∈ N.ch n, N.scList raw' c = N.scList raw c := fun c hc => ih c (by have := hr n c hc; omega) fun m hm => h m (by omega)
    have hl := N.scList_local raw
    have hstep : ∀ r : ι → List Int, (match N.kind n with | .product cs => cs.flatMap (N.scList raw') | _ => []) = (match N.kind n with | .product cs => cs.flatMap (N.scList raw) | _ => []) := by
      intro _
      cases hk : N.kind n with
      | leaf l => rfl
      | sum cs w => rfl
      | product cs =>
        show cs.flatMap _ = cs.flatMap _
        rw [List.flatMap, List.flatMap, List.map_congr_left (fun c hc => hcc c (by simpa [Net.ch, hk] using hc))]
    rcases h n hn with e | ⟨e1, e2⟩
    · rw [Net.scList_unfold hac, Net.scList_unfold hac raw]
      unfold Net.scListStep
      rw [e, hstep raw]
    · by_cases e3 : raw' n = []
      · rw [Net.scList_unfold hac]
        unfold Net.scListStep
        rw [if_neg (by simp [e3]), hstep raw]
        conv_rhs => rw [Net.scList_unfold hac raw]
        unfold Net.scListStep
        rw [if_neg (by simp [e1])]
      · rw [Net.scList_unfold hac]
        unfold Net.scListStep
        rw [if_pos e3, e2]

/-- `Sc` returns `scList` and only fills in missing scopes, of nodes at or below the one asked. -/
theorem Net.scGo_spec {N : Net ι F} (hac : Acyclic N.ch) {rank : ι → Nat} (hr : ∀ u, ∀ c ∈ N.ch u, rank c < rank u) (hne : ∀ n cs w, N.kind n = .sum cs w → cs ≠ []) :
    ∀ k raw n, rank n < k → ∃ raw', N.scGo k raw n = some (N.scList raw n, raw') ∧ (∀ m, CachedAt N raw raw' m) ∧ ∀ m, rank n < rank m → raw' m = raw m := by
  intro k
  induction k with
  | zero => intro raw n h; omega
  | succ k ih =>
    intro raw n h
    show ∃ raw', N.scStep (N.scGo k) raw n = _ ∧ _
    unfold Net.scStep
    by_cases hraw : raw n = []
    · cases hk : N.kind n with
      | leaf l =>
        refine ⟨raw, ?_, fun m => Or.inl rfl, fun m _ => rfl⟩
        rw [Net.scList_unfold hac]; unfold Net.scListStep
        simp [hraw, hk]
      | sum cs w =>
        obtain ⟨c, t, rfl⟩ := List.exists_cons_of_ne_nil (hne n cs w hk)
        have hc : rank c < rank n := hr n c (by simp [Net.ch, hk])
        obtain ⟨raw', g1, g2, g3⟩ := ih raw c (by omega)
        refine ⟨raw', ?_, g2, fun m hm => g3 m (by omega)⟩
        rw [Net.scList_unfold hac]; unfold Net.scListStep
        simp [hraw, hk, g1, g3 n hc]
      | product cs =>
        simp only [hraw, if_true]
        have key : ∀ (l pre : List ι) (r : ι → List Int), pre ++ l = cs → r n = pre.flatMap (N.scList raw) → (∀ m, m ≠ n → CachedAt N raw r m) → (∀ m, rank n < rank m → r m = raw m) →
            ∃ r', l.foldlM (productScStep (N.scGo k) n) r = some r' ∧ r' n = cs.flatMap (N.scList raw) ∧ (∀ m, m ≠ n → CachedAt N raw r' m) ∧ (∀ m, rank n < rank m → r' m = raw m) := by
          intro l
          induction l with
          | nil =>
            intro pre r e h1 h2 h3
            rw [List.append_nil] at e
            subst e
            exact ⟨r, rfl, h1, h2, h3⟩
          | cons c l ihl =>
            intro pre r e h1 h2 h3
            have hcm : c ∈ N.ch n := by simp [Net.ch, hk, ← e]
            have hc : rank c < rank n := hr n c hcm
            obtain ⟨r1, g1, g2, g3⟩ := ih r c (by omega)
            have hsame : ∀ m, rank m < rank n → N.scList r m = N.scList raw m := by
              intro m hm
              exact scList_cached hac hr (rank n - 1) m (by omega) fun u hu => h2 u (by rintro rfl; omega)
            have hstep : productScStep (N.scGo k) n r c = some (Function.update r1 n (r1 n ++ N.scList r c)) := by simp [productScStep, g1]
            rw [List.foldlM_cons, hstep]
            refine ihl (pre ++ [c]) _ (by simp [e]) ?_ ?_ ?_
            · rw [Function.update_self, g3 n hc, h1, hsame c hc]
              simp
            · intro m hm
              rw [CachedAt, Function.update_of_ne hm]
              by_cases hle : rank m ≤ rank c
              · rcases g2 m with q | ⟨q1, q2⟩
                · rw [q]; exact h2 m hm
                · rw [q2, hsame m (by omega)]
                  rcases h2 m hm with q | ⟨q3, q4⟩
                  · rw [← q]; exact Or.inr ⟨q1, rfl⟩
                  · exact Or.inr ⟨q3, rfl⟩
              · rw [g3 m (by omega)]; exact h2 m hm
            · intro m hm
              rw [Function.update_of_ne (by rintro rfl; omega), g3 m (by omega)]
              exact h3 m hm
        obtain ⟨r', q1, q2, q3, q4⟩ := key cs [] raw rfl (by simpa using hraw) (fun m _ => Or.inl rfl) (fun m _ => rfl)
        have hlist : N.scList raw n = cs.flatMap (N.scList raw) := by
          rw [Net.scList_unfold hac]; unfold Net.scListStep; simp [hraw, hk]
        refine ⟨r', ?_, ?_, q4⟩
        · rw [q1, Option.map_some, q2, hlist]
        · intro m
          by_cases hm : m = n
          · subst hm; exact Or.inr ⟨hraw, by rw [q2, hlist]⟩
          · exact q3 m hm
    · refine ⟨raw, ?_, fun m => Or.inl rfl, fun m _ => rfl⟩
      have : N.scList raw n = raw n := by
        rw [Net.scList_unfold hac]; unfold Net.scListStep; rw [if_pos hraw]
      rw [this]
      cases hk : N.kind n <;> simp [hraw]

theorem Net.sc_spec {N : Net ι F} (hac : Acyclic N.ch) (hne : ∀ n cs w, N.kind n = .sum cs w → cs ≠ []) (raw : ι → List Int) (n : ι) :
    ∃ raw', N.sc raw n = some (N.scList raw n, raw') ∧ ∀ m, CachedAt N raw raw' m := by
  obtain ⟨rank, hr, hb⟩ := hac.bounded
  obtain ⟨raw', h1, h2, _⟩ := Net.scGo_spec hac hr hne (Fintype.card ι) raw n (hb n)
  exact ⟨raw', h1, h2⟩

/-- C113, part: a node whose scope is recorded returns it and nothing changes; so, after `ComputeScope(S)` (under the conditions of C28), every node below `S` that has
variables at all returns them, each once. -/
theorem C113_recorded_partial (N : Net ι F) (S : ι) (ord : ι → List Int → List Int) (raw : ι → List Int) (hac : Acyclic N.ch) (hso : SiblingOrdered N.ch S)
    (hl : LeavesAreLeaves N S) (hraw : LeafScopes N S raw) (hord : ∀ s l, (ord s l).Perm l) (hne : ∀ n cs w, N.kind n = .sum cs w → cs ≠ []) (n : ι) (hn : Reach N.ch S n)
    (hv : ∃ v, InScope N n v) :
    ∃ l, N.sc (computeScope N.ch ord S raw) n = some (l, computeScope N.ch ord S raw) ∧ l.Nodup ∧ ∀ v, v ∈ l ↔ InScope N n v := by
  obtain ⟨h1, _⟩ := C28_scope_partial N S ord raw hac hso hl hraw hord
  obtain ⟨h2, h3⟩ := h1 n hn
  obtain ⟨v, hv⟩ := hv
  have hnil : computeScope N.ch ord S raw n ≠ [] := by
    intro e
    have := (h3 v).2 hv
    rw [e] at this
    simp at this
  refine ⟨_, ?_, h2, h3⟩
  obtain ⟨rank, hr, hb⟩ := hac.bounded
  have hc : 0 < Fintype.card ι := by have := hb n; omega
  obtain ⟨k, hk⟩ : ∃ k, Fintype.card ι = k + 1 := ⟨Fintype.card ι - 1, by omega⟩
  unfold Net.sc
  rw [hk]
  show N.scStep _ _ n = _
  unfold Net.scStep
  cases hkind : N.kind n <;> simp [hnil]

/-- C113 fails for sums: without a recorded scope, the result is empty, whatever the children are. -/
theorem C113_sum_refuted (N : Net ι F) (hac : Acyclic N.ch) (hne : ∀ n cs w, N.kind n = .sum cs w → cs ≠ []) (raw : ι → List Int) (n : ι) (cs : List ι) (w : List F)
    (hk : N.kind n = .sum cs w) (hraw : raw n = []) : ∃ raw', N.sc raw n = some ([], raw') := by
  obtain ⟨raw', h, _⟩ := Net.sc_spec hac hne raw n
  refine ⟨raw', ?_⟩
  rw [h, Net.scList_unfold hac]
  simp [Net.scListStep, hraw, hk]

theorem Spec.BelowProducts.reach {N : Net ι F} {n m : ι} (h : BelowProducts N n m) : Reach N.ch n m := by
  induction h with
  | refl n => exact Relation.ReflTransGen.refl
  | step hk hc _ ih => exact Relation.ReflTransGen.head (by simp [Net.ch, hk]; exact hc) ih

theorem scList_fresh_mem {N : Net ι F} (hac : Acyclic N.ch) {raw : ι → List Int} (hf : FreshScopes N raw) (v : Int) :
    ∀ n, v ∈ N.scList raw n ↔ ∃ m l, BelowProducts N n m ∧ N.kind m = .leaf l ∧ leafVar l = v := by
  obtain ⟨rank, hr⟩ := id hac
  intro n
  induction hn : rank n using Nat.strong_induction_on generalizing n with
  | _ k ih =>
    rw [Net.scList_unfold hac]
    unfold Net.scListStep
    have hfn := hf n
    cases hk : N.kind n with
    | leaf l =>
      rw [hk] at hfn
      simp only at hfn
      rw [hfn, if_pos (by simp)]
      constructor
      · intro h
        simp at h
        exact ⟨n, l, .refl n, hk, h.symm⟩
      · rintro ⟨m, l', hb, hm, rfl⟩
        cases hb with
        | refl => rw [hk] at hm; cases hm; simp
        | step h _ _ => rw [hk] at h; cases h
    | sum cs w =>
      rw [hk] at hfn
      simp only at hfn
      rw [hfn, if_neg (by simp)]
      simp only [List.not_mem_nil, false_iff]
      rintro ⟨m, l', hb, hm, _⟩
      cases hb with
      | refl => rw [hk] at hm; cases hm
      | step h _ _ => rw [hk] at h; cases h
    | product cs =>
      rw [hk] at hfn
      simp only at hfn
      rw [hfn, if_neg (by simp)]
      simp only [List.mem_flatMap]
      have hc : ∀ c ∈ cs, rank c < k := fun c hc => by rw [← hn]; exact hr n c (by simp [Net.ch, hk, hc])
      constructor
      · rintro ⟨c, hcm, h⟩
        obtain ⟨m, l, hb, hm, e⟩ := (ih _ (hc c hcm) c rfl).1 h
        exact ⟨m, l, .step hk hcm hb, hm, e⟩
      · rintro ⟨m, l, hb, hm, e⟩
        cases hb with
        | refl => rw [hk] at hm; cases hm
        | @step _ c _ cs' h hcm hb =>
          rw [hk] at h
          cases h
          exact ⟨c, hcm, (ih _ (hc c hcm) c rfl).2 ⟨m, l, hb, hm, e⟩⟩

/-- C113: in a network that has not been asked before, `Sc` of any node returns exactly the variables of the leaves below it that are reached through products alone: what is
under a sum is missing. -/
theorem C113_fresh (N : Net ι F) (hac : Acyclic N.ch) (hne : ∀ n cs w, N.kind n = .sum cs w → cs ≠ []) (raw : ι → List Int) (hf : FreshScopes N raw) (n : ι) :
    ∃ l raw', N.sc raw n = some (l, raw') ∧ ∀ v, v ∈ l ↔ ∃ m lf, BelowProducts N n m ∧ N.kind m = .leaf lf ∧ leafVar lf = v := by
  obtain ⟨raw', h, _⟩ := Net.sc_spec hac hne raw n
  exact ⟨_, raw', h, fun v => scList_fresh_mem hac hf v n⟩

/-- C113, part: so a node without sums below it returns its scope. -/
theorem C113_products_partial (N : Net ι F) (hac : Acyclic N.ch) (hne : ∀ n cs w, N.kind n = .sum cs w → cs ≠ []) (raw : ι → List Int) (hf : FreshScopes N raw) (n : ι)
    (hs : ∀ m cs w, Reach N.ch n m → N.kind m ≠ .sum cs w) : ∃ l raw', N.sc raw n = some (l, raw') ∧ ∀ v, v ∈ l ↔ InScope N n v := by
  have hb : ∀ a m, Reach N.ch a m → (∀ m cs w, Reach N.ch a m → N.kind m ≠ .sum cs w) → BelowProducts N a m := by
    intro a m hm
    induction hm using Relation.ReflTransGen.head_induction_on with
    | refl => intro _; exact .refl m
    | @head a c hac' hcm ih =>
      intro hs
      have hbc := ih fun m' cs w h => hs m' cs w (Relation.ReflTransGen.head hac' h)
      cases hk : N.kind a with
      | leaf l => simp [Net.ch, hk] at hac'
      | sum cs w => exact absurd hk (hs a cs w Relation.ReflTransGen.refl)
      | product cs => exact .step hk (by simpa [Net.ch, hk] using hac') hbc
  obtain ⟨l, raw', h1, h2⟩ := C113_fresh N hac hne raw hf n
  refine ⟨l, raw', h1, fun v => ?_⟩
  rw [h2]
  constructor
  · rintro ⟨m, lf, hbm, hk, e⟩; exact ⟨m, lf, hbm.reach, hk, e⟩
  · rintro ⟨m, lf, hm, hk, e⟩; exact ⟨m, lf, hb n m hm hs, hk, e⟩

/-- C113: asking does not change what is returned afterwards, by any node. -/
theorem C113_again (N : Net ι F) (hac : Acyclic N.ch) (hne : ∀ n cs w, N.kind n = .sum cs w → cs ≠ []) (raw : ι → List Int) (n m : ι) :
    ∃ l raw', N.sc raw n = some (l, raw') ∧ ((N.sc raw' m).map Prod.fst) = ((N.sc raw m).map Prod.fst) := by
  obtain ⟨raw', h, h2⟩ := Net.sc_spec hac hne raw n
  obtain ⟨r1, g1, _⟩ := Net.sc_spec hac hne raw' m
  obtain ⟨r2, g2, _⟩ := Net.sc_spec hac hne raw m
  obtain ⟨rank, hr⟩ := id hac
  refine ⟨_, raw', h, ?_⟩
  rw [g1, g2]
  simp [scList_cached hac hr (rank m) m le_rfl fun u _ => h2 u]

/-- C113 fails for a product that is given another child after it was asked: it returns what it returned. `N'` is the network with more children of `n`. -/
theorem C113_stale (N N' : Net ι F) (hac : Acyclic N.ch) (hac' : Acyclic N'.ch) (hne : ∀ n cs w, N.kind n = .sum cs w → cs ≠ []) (hne' : ∀ n cs w, N'.kind n = .sum cs w → cs ≠ [])
    (raw : ι → List Int) (n : ι) (cs cs' : List ι) (hk : N.kind n = .product cs) (hk' : N'.kind n = .product cs') (l : List Int) (hl : l ≠ []) (raw' : ι → List Int)
    (h : N.sc raw n = some (l, raw')) : N'.sc raw' n = some (l, raw') := by
  obtain ⟨rank, hr, hb⟩ := hac.bounded
  have hc : 0 < Fintype.card ι := by have := hb n; omega
  obtain ⟨k, hk0⟩ : ∃ k, Fintype.card ι = k + 1 := ⟨Fintype.card ι - 1, by omega⟩
  have hl' : raw' n = l := by
    unfold Net.sc at h
    rw [hk0] at h
    change N.scStep _ _ n = _ at h
    unfold Net.scStep at h
    rw [hk] at h
    simp only at h
    split at h
    · rw [Option.map_eq_some_iff] at h
      obtain ⟨a, _, e⟩ := h
      rw [Prod.mk.injEq] at e
      rw [← e.2, e.1]
    · simp only [Option.some.injEq, Prod.mk.injEq] at h
      rw [← h.2, h.1]
  unfold Net.sc
  rw [hk0]
  show N'.scStep _ _ n = _
  unfold Net.scStep
  rw [hk']
  simp [hl', hl]

/-- In a mixture of two products over the variables 0 and 1, the root returns nothing. -/
theorem C113_refuted : ∃ raw raw', FreshScopes mixNet raw ∧ mixNet.sc raw 0 = some ([], raw') ∧ InScope mixNet 0 0 ∧ InScope mixNet 0 1 := by
  have hne : ∀ n cs w, mixNet.kind n = .sum cs w → cs ≠ [] := by
    intro n cs w hk
    fin_cases n <;> simp [mixNet] at hk
    rw [← hk.1]; simp
  let raw : Fin 7 → List Int := fun n => match mixNet.kind n with | .leaf l => [leafVar l] | _ => []
  obtain ⟨raw', h⟩ := C113_sum_refuted mixNet mixNet_acyclic hne raw 0 [1, 2] _ rfl rfl
  refine ⟨raw, raw', fun n => by cases hk : mixNet.kind n <;> simp [raw, hk], h, ?_, ?_⟩
  · rw [InScope.of_node (by intro l h; cases h)]; exact ⟨1, by simp [mixNet, Net.ch], (mixNet_scope1 0).2 (by simp)⟩
  · rw [InScope.of_node (by intro l h; cases h)]; exact ⟨1, by simp [mixNet, Net.ch], (mixNet_scope1 1).2 (by simp)⟩

/-- A product below which there is no sum. -/
example : ∀ m cs w, Reach mixNet.ch 1 m → mixNet.kind m ≠ .sum cs w := by
  intro m cs w hm hk
  have hc : ∀ a b, Reach mixNet.ch a b → a ≠ 0 → b ≠ 0 := by
    intro a b h
    induction h using Relation.ReflTransGen.head_induction_on with
    | refl => exact id
    | head hab _ ih =>
      intro _
      apply ih
      rintro rfl
      have := mixNet_rank _ _ hab
      revert this
      rename_i a' _ _
      fin_cases a' <;> simp
  have := hc 1 m hm (by decide)
  fin_cases m <;> simp [mixNet] at hk this

end Gospn
