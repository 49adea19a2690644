import Verif.Props.Derive
import Mathlib.Data.List.Count
/-!
Properties C34, C35 and C56: the discriminative gradient step.
-/
set_option linter.unusedSectionVars false
namespace Gospn
open Spec GoFloat

variable {ι : Type} [DecidableEq ι] [Fintype ι]

/-! ### C34 -/
section
variable {F : Type} [GoFloat F]

theorem dgdLoop_root {N : Net ι F} {σ : Type} (upd : σ → ι → σ) {S : ι} (hS : S ∉ N.ch S) (W : σ) (k : Nat) :
    N.dgdLoop upd (k + 2) [S] {S} W = some (if N.type S = .sum then upd W S else W) := by
  have h : ∀ l : List ι, S ∉ l →
      l.foldl (fun (QV : List ι × Finset ι) c => if N.type c ≠ .leaf ∧ c ∈ QV.2 then (QV.1 ++ [c], insert c QV.2) else QV) ([], {S}) = ([], {S}) := by
    intro l
    induction l with
    | nil => intro _; rfl
    | cons c l ih =>
      intro hl
      have h1 : c ≠ S := fun h => hl (by simp [h])
      rw [List.foldl_cons, if_neg (by simp [h1])]
      exact ih (fun h => hl (by simp [h]))
  simp only [Net.dgdLoop, h _ hS]

/-- C34 is refuted on every network: a step of discriminative gradient descent changes the root and no other node, because the loop only goes on to nodes it has been to
(`V[cs]` for `!V[cs]`). -/
theorem C34_refuted (N : Net ι F) (S : ι) (hac : Acyclic N.ch) (s w z u : Int) (st : Storer ι F) (eta lambda b : F) (norm : Bool) (k : Nat) :
    ∃ N' : Net ι F, N.applyDGD S s w z u st eta lambda b norm (k + 2) = some N' ∧ ∀ n, n ≠ S → N'.kind n = N.kind n := by
  have hS : S ∉ N.ch S := fun h => by obtain ⟨r, hr⟩ := hac; exact Nat.lt_irrefl _ (hr S S h)
  refine ⟨_, by rw [Net.applyDGD, dgdLoop_root _ hS]; rfl, ?_⟩
  intro n hn
  simp only [Net.withWeights]
  cases hk : N.kind n with
  | sum cs w =>
    simp only
    congr 1
    split
    · rw [Function.update_of_ne hn]; simp [Net.weights, hk]
    · simp [Net.weights, hk]
  | leaf l => rfl
  | product cs => rfl

/-- C34, part (missing: all sum nodes but the root, which `C34_refuted` shows to stay as they are): the root's weights each move once, by
`eta * (exp(dW - iS) - exp(dU - iZ)) / b - 2 * lambda * w` with what the tables hold, and are then normalised if asked. -/
theorem C34_root_partial (N : Net ι F) (S : ι) (hac : Acyclic N.ch) (s w z u : Int) (st : Storer ι F) (eta lambda b : F) (norm : Bool) (k : Nat) (cs : List ι) (ws : List F)
    (hk : N.kind S = .sum cs ws) :
    ∃ (N' : Net ι F) (ws' : List F), N.applyDGD S s w z u st eta lambda b norm (k + 2) = some N' ∧
      N'.kind S = .sum cs (if norm then learnNormalize ws' else ws') ∧ ws'.length = ws.length ∧
      ∀ (i : Nat) (x : F), ws[i]? = some x → ws'[i]? = some (add x (sub (div (mul eta (sub (exp (sub ((st.entry w S i).getD (ofInt 0)) ((st.entry s S i).getD (ofInt 0))))
        (exp (sub ((st.entry u S i).getD (ofInt 0)) ((st.entry z S i).getD (ofInt 0)))))) b) (mul (mul (ofInt 2) lambda) x))) := by
  have hS : S ∉ N.ch S := fun h => by obtain ⟨r, hr⟩ := hac; exact Nat.lt_irrefl _ (hr S S h)
  have hts : N.type S = .sum := by simp [Net.type, hk]
  refine ⟨_, dgdWeights eta lambda b ((st.deref (st.table w)).getInner S) ((st.deref (st.table u)).getInner S)
        ((st.deref (st.table s)).getInner S) ((st.deref (st.table z)).getInner S) ws, by rw [Net.applyDGD, dgdLoop_root _ hS]; rfl, ?_, ?_, ?_⟩
  · simp [Net.withWeights, hk, hts, Net.weights]
  · simp [dgdWeights]
  · intro i x hx
    simp [dgdWeights, List.getElem?_map, List.getElem?_zipIdx, hx, Table.getInner, deref_table]

end

/-- A storage with tickets 0 to 3. Tables 0 and 2 hold the values 1/2 and 1 of the SPN (index 0 only, as `StoreInference` leaves them), tables 1 and 3 the
derivatives 1/2 and 1 at indices 0 and 1 (as `DeriveWeights` leaves them at a sum node with two children). -/
noncomputable def discStore (ι : Type) : Storer ι XR :=
  ⟨fun a _ => if a < 4 then some (fun i => if i = 0 ∨ (i = 1 ∧ (a = 1 ∨ a = 3)) then some (.fin (if a < 2 then Real.log (1 / 2) else 0)) else none) else none,
    4, fun k => if 0 ≤ k ∧ k < 4 then some k.toNat else none, 4⟩

theorem discStore_wf : (discStore ι).WF := by
  refine ⟨?_, ?_, ?_⟩
  · intro k a h
    simp only [discStore] at h ⊢
    split at h <;> simp at h
    omega
  · intro k k' a h h'
    simp only [discStore] at h h'
    split at h <;> simp at h
    split at h' <;> simp at h'
    omega
  · intro a S v h
    simp only [discStore] at h
    split at h <;> simp at h
    subst h
    exact ⟨0, by simp⟩

/-- A sum node below a sum node. -/
noncomputable def stairNet : Net (Fin 3) XR := ⟨![.sum [1] [.fin 1], .sum [2, 2] [.fin (1 / 2), .fin (1 / 2)], .leaf (.indicator 0 1)]⟩

theorem stairNet_acyclic : Acyclic stairNet.ch := by
  have : stairNet.ch = ![[1], [2, 2], []] := by funext i; fin_cases i <;> rfl
  rw [this]
  exact ⟨![2, 1, 0], by decide⟩

/-- C34 is refuted: below the root there is a sum node whose update is not zero, and the step leaves its weights alone. -/
theorem C34_refuted_witness : ∃ (N : Net (Fin 3) XR) (st : Storer (Fin 3) XR) (N' : Net (Fin 3) XR) (cs : List (Fin 3)) (ws : List XR), Acyclic N.ch ∧ st.WF ∧ Reach N.ch 0 1 ∧
    N.kind 1 = .sum cs ws ∧ N.applyDGD 0 0 1 2 3 st (.fin 1) (.fin 0) (.fin 1) false 2 = some N' ∧ N'.kind 1 = .sum cs ws ∧
    dgdWeights (.fin 1) (.fin 0) (.fin 1) ((st.deref (st.table 1)).getInner 1) ((st.deref (st.table 3)).getInner 1) ((st.deref (st.table 0)).getInner 1)
      ((st.deref (st.table 2)).getInner 1) ws ≠ ws := by
  obtain ⟨N', h1, h2⟩ := C34_refuted stairNet 0 stairNet_acyclic 0 1 2 3 (discStore (Fin 3)) (.fin 1) (.fin 0) (.fin 1) false 0
  refine ⟨stairNet, discStore (Fin 3), N', [2, 2], [.fin (1 / 2), .fin (1 / 2)], stairNet_acyclic, discStore_wf, Relation.ReflTransGen.single ?_, rfl, h1, h2 1 (by decide), ?_⟩
  · show (1 : Fin 3) ∈ stairNet.ch 0
    simp [stairNet, Net.ch]
  · intro h
    have := congrArg (fun l : List XR => l[1]?) h
    simp [dgdWeights, Table.getInner, Table.entry, Storer.deref, Storer.table, discStore] at this
    rw [Real.exp_neg, Real.exp_log (by norm_num)] at this
    norm_num at this

/-! ### C56 -/

/-- C56, part (missing: all weights but the first, and all nodes but the root): with the values of the SPN (at index 0) and the weight derivatives stored, the first weight
of the root moves by the learning rate times `dS/dw / S - dZ/dw / Z`, less the regularisation. -/
theorem C56_first_partial (N : Net ι XR) (S : ι) (hac : Acyclic N.ch) (s w z u : Int) (st : Storer ι XR) (eta lambda : ℝ) (b : ℝ) (hb : b ≠ 0) (k : Nat) (cs : List ι) (ws : List XR)
    (hk : N.kind S = .sum cs ws) (x d du : ℝ) (vs vz : ℝ) (hx : ws[0]? = some (.fin x))
    (hs : st.entry s S 0 = some (.fin vs)) (hz : st.entry z S 0 = some (.fin vz))
    (hd : ∃ e, st.entry w S 0 = some e ∧ IsLogProb e ∧ unlog e = d) (hdu : ∃ e, st.entry u S 0 = some e ∧ IsLogProb e ∧ unlog e = du) :
    ∃ (N' : Net ι XR), N.applyDGD S s w z u st (.fin eta) (.fin lambda) (.fin b) false (k + 2) = some N' ∧
      (N'.weights S)[0]? = some (.fin (x + (eta * (d / Real.exp vs - du / Real.exp vz) / b - 2 * lambda * x))) := by
  obtain ⟨N', ws', h1, h2, _, h3⟩ := C34_root_partial N S hac s w z u st (.fin eta) (.fin lambda) (.fin b) false (k := k) cs ws hk
  refine ⟨N', h1, ?_⟩
  obtain ⟨e, he, hl, rfl⟩ := hd
  obtain ⟨e', he', hl', rfl⟩ := hdu
  have hexp : ∀ (e : XR) (v : ℝ), IsLogProb e → XR.exp (XR.sub e (.fin v)) = .fin (unlog e / Real.exp v) := by
    intro e v h
    rcases IsLogProb.cases h with rfl | ⟨r, rfl⟩ <;> simp [Real.exp_sub]
  have := h3 0 (.fin x) hx
  simp only [Nat.cast_zero, hs, hz, he, he', Option.getD_some, XR.g_sub, XR.g_exp, hexp _ _ hl, hexp _ _ hl', XR.sub_fin, XR.g_mul, XR.mul_fin, XR.g_div, XR.div_fin hb, XR.g_add,
    XR.add_fin, XR.g_ofInt] at this
  simp [Net.weights, h2, this]

/-- The other weights of the root move by the learning rate times `dS/dw - dZ/dw`: the values of the SPN are looked up at the index of the weight,
where `StoreInference` leaves nothing, so nothing is divided. -/
theorem C56_others (N : Net ι XR) (S : ι) (hac : Acyclic N.ch) (s w z u : Int) (st : Storer ι XR) (eta lambda : ℝ) (b : ℝ) (hb : b ≠ 0) (k : Nat) (cs : List ι) (ws : List XR)
    (hk : N.kind S = .sum cs ws) (i : Nat) (x d du : ℝ) (hx : ws[i]? = some (.fin x))
    (hs : st.entry s S i = none) (hz : st.entry z S i = none)
    (hd : ∃ e, st.entry w S i = some e ∧ IsLogProb e ∧ unlog e = d) (hdu : ∃ e, st.entry u S i = some e ∧ IsLogProb e ∧ unlog e = du) :
    ∃ (N' : Net ι XR), N.applyDGD S s w z u st (.fin eta) (.fin lambda) (.fin b) false (k + 2) = some N' ∧
      (N'.weights S)[i]? = some (.fin (x + (eta * (d - du) / b - 2 * lambda * x))) := by
  obtain ⟨N', ws', h1, h2, _, h3⟩ := C34_root_partial N S hac s w z u st (.fin eta) (.fin lambda) (.fin b) false (k := k) cs ws hk
  refine ⟨N', h1, ?_⟩
  obtain ⟨e, he, hl, rfl⟩ := hd
  obtain ⟨e', he', hl', rfl⟩ := hdu
  have hexp : ∀ (e : XR), IsLogProb e → XR.exp (XR.sub e (.fin 0)) = .fin (unlog e) := by
    intro e h
    rcases IsLogProb.cases h with rfl | ⟨r, rfl⟩ <;> simp
  have := h3 i (.fin x) hx
  simp only [hs, hz, he, he', Option.getD_some, Option.getD_none, XR.g_sub, XR.g_exp, XR.g_ofInt, Int.cast_zero, hexp _ hl, hexp _ hl', XR.sub_fin, XR.g_mul, XR.mul_fin, XR.g_div,
    XR.div_fin hb, XR.g_add, XR.add_fin] at this
  simp [Net.weights, h2, this]

private theorem disc_entry (n : Fin 5) : (discStore (Fin 5)).entry 0 n 0 = some (.fin (Real.log (1 / 2))) ∧ (discStore (Fin 5)).entry 2 n 0 = some (.fin 0) ∧
    (discStore (Fin 5)).entry 0 n 1 = none ∧ (discStore (Fin 5)).entry 2 n 1 = none ∧
    (∀ i : Int, i = 0 ∨ i = 1 → (discStore (Fin 5)).entry 1 n i = some (.fin (Real.log (1 / 2))) ∧ (discStore (Fin 5)).entry 3 n i = some (.fin 0)) := by
  refine ⟨?_, ?_, ?_, ?_, ?_⟩
  · simp [discStore, Storer.entry, Table.entry]
  · simp [discStore, Storer.entry, Table.entry]
  · simp [discStore, Storer.entry, Table.entry]
  · simp [discStore, Storer.entry, Table.entry]
  · rintro i (rfl | rfl) <;> simp [discStore, Storer.entry, Table.entry]

/-- C56 is refuted: at a root with weights 1/2 and 1/2 the gradient of `log S - log Z` is zero in both weights (each derivative divided by its value is one), and the step
takes the second weight to zero. -/
theorem C56_refuted : ∃ (N : Net (Fin 5) XR) (st : Storer (Fin 5) XR) (N' : Net (Fin 5) XR), Acyclic N.ch ∧ st.WF ∧ N.weights 0 = [.fin (1 / 2), .fin (1 / 2)] ∧
    (∀ i : Int, i = 0 ∨ i = 1 → ∃ d du vs vz, st.entry 1 0 i = some d ∧ st.entry 3 0 i = some du ∧ st.entry 0 0 0 = some vs ∧ st.entry 2 0 0 = some vz ∧
      unlog d / unlog vs - unlog du / unlog vz = 0) ∧
    N.applyDGD 0 0 1 2 3 st (.fin 1) (.fin 0) (.fin 1) false 2 = some N' ∧ (N'.weights 0)[1]? = some (.fin 0) := by
  obtain ⟨h1, h2, h3, h4, h5⟩ := disc_entry 0
  obtain ⟨N', q1, q2⟩ := C56_others sharedNet 0 sharedNet_acyclic 0 1 2 3 (discStore (Fin 5)) 1 0 1 one_ne_zero 0 [1, 2] [.fin (1 / 2), .fin (1 / 2)] rfl 1 (1 / 2) (1 / 2) 1 rfl h3 h4
    ⟨_, (h5 1 (Or.inr rfl)).1, trivial, by rw [unlog_fin, Real.exp_log (by norm_num)]⟩ ⟨_, (h5 1 (Or.inr rfl)).2, trivial, by simp⟩
  refine ⟨sharedNet, discStore (Fin 5), N', sharedNet_acyclic, discStore_wf, rfl, ?_, q1, by rw [q2]; norm_num⟩
  intro i hi
  refine ⟨_, _, _, _, (h5 i hi).1, (h5 i hi).2, h1, h2, ?_⟩
  rw [unlog_fin, unlog_fin, Real.exp_log (by norm_num)]
  norm_num

/-! ### C35 -/

theorem pullValues_length (I : VarSet) (Y : List Int) : (pullValues I Y).2.length = Y.length := by
  induction Y generalizing I with
  | nil => rfl
  | cons u Y ih => simp [pullValues, ih]

theorem pull_get (I : VarSet) (Y : List Int) (u : Int) : (pullValues I Y).1 u = if u ∈ Y then none else I u := by
  induction Y generalizing I with
  | nil => simp [pullValues]
  | cons v Y ih =>
    simp only [pullValues, ih, List.mem_cons]
    by_cases h : u ∈ Y
    · simp [h]
    · by_cases hv : u = v
      · subst hv; simp [h]
      · simp [h, hv, Function.update_of_ne]

theorem push_get (Y : List Int) : ∀ (J I : VarSet) (u : Int),
    pushValues J Y (pullValues I Y).2 u = if u ∉ Y then J u else if Y.count u = 1 then some ((I u).getD 0) else some 0 := by
  induction Y with
  | nil => intro J I u; simp [pushValues]
  | cons v Y ih =>
    intro J I u
    simp only [pullValues, pushValues, ih, List.mem_cons]
    by_cases hu : u ∈ Y
    · have hc : 0 < Y.count u := List.count_pos_iff.2 hu
      by_cases hv : u = v
      · subst hv
        have h1 : ¬ Y.count u = 0 := by omega
        simp [hu, List.count_cons_self]
        intro h; exact absurd h h1
      · simp [hu, List.count_cons_of_ne (Ne.symm hv), Function.update_of_ne hv]
    · by_cases hv : u = v
      · subst hv
        simp [hu, List.count_cons_self, List.count_eq_zero_of_not_mem hu]
      · simp [hu, hv]

/-- C35, exactly: pulling the query variables out of an instance and pushing them back restores it if and only if the instance has every query variable,
and those that are listed more than once have the value 0. -/
theorem C35_restored_iff (I : VarSet) (Y : List Int) :
    pushValues (pullValues I Y).1 Y (pullValues I Y).2 = I ↔ ∀ u ∈ Y, ∃ v, I u = some v ∧ (Y.count u = 1 ∨ v = 0) := by
  constructor
  · intro h u hu
    have h1 := congrFun h u
    rw [push_get] at h1
    simp only [hu, not_true_eq_false, if_false] at h1
    split at h1
    · rename_i hc; exact ⟨_, h1.symm, Or.inl hc⟩
    · exact ⟨_, h1.symm, Or.inr rfl⟩
  · intro h
    funext u
    rw [push_get, pull_get]
    by_cases hu : u ∈ Y
    · obtain ⟨v, hv, hc⟩ := h u hu
      simp only [hu, not_true_eq_false, if_false]
      split
      · simp [hv]
      · rename_i h1; rw [hv, hc.resolve_left h1]
    · simp [hu]

/-- C35, part (missing: query variables absent from the instance or listed twice, see `C35_refuted`): distinct query variables that the instance has are restored. -/
theorem C35_restored_partial (I : VarSet) (Y : List Int) (hnd : Y.Nodup) (hp : ∀ u ∈ Y, I u ≠ none) :
    pushValues (pullValues I Y).1 Y (pullValues I Y).2 = I := by
  rw [C35_restored_iff]
  intro u hu
  obtain ⟨v, hv⟩ := Option.ne_none_iff_exists'.1 (hp u hu)
  exact ⟨v, hv, Or.inl (List.count_eq_one_of_mem hnd hu)⟩

example : ([3, 1] : List Int).Nodup ∧ ∀ u ∈ ([3, 1] : List Int), (fun u => if u = 1 ∨ u = 2 ∨ u = 3 then some (u * 2) else none : VarSet) u ≠ none := by
  constructor
  · decide
  · intro u hu
    simp at hu
    rcases hu with rfl | rfl <;> simp

/-- Between the two calls the query variables are not in the instance, whatever happens otherwise. -/
theorem C35_hidden (I : VarSet) (Y : List Int) (u : Int) : (pullValues I Y).1 u = if u ∈ Y then none else I u := pull_get I Y u

/-- C35 is refuted: a query variable the instance does not have is there afterwards with the value 0, and a query variable listed twice loses its value. -/
theorem C35_refuted : (∃ (I : VarSet) (Y : List Int) (u : Int), Y.Nodup ∧ I u = none ∧ pushValues (pullValues I Y).1 Y (pullValues I Y).2 u = some 0) ∧
    (∃ (I : VarSet) (Y : List Int) (u : Int), (∀ u ∈ Y, I u ≠ none) ∧ I u = some 5 ∧ pushValues (pullValues I Y).1 Y (pullValues I Y).2 u = some 0) := by
  refine ⟨⟨fun _ => none, [7], 7, by decide, rfl, rfl⟩, ⟨fun _ => some 5, [7, 7], 7, by simp, rfl, rfl⟩⟩

end Gospn
