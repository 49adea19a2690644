import Verif.Proofs.Infer
set_option linter.unusedSectionVars false
namespace Gospn
open Spec GoFloat
variable {ι F : Type} [GoFloat F]

theorem weightedMax_length : ∀ (vs ws us : List F), weightedMax vs ws = some us → us.length = vs.length := by
  intro vs
  induction vs with
  | nil => intro ws us h; simp [weightedMax] at h; subst h; rfl
  | cons v vs ih =>
    intro ws us h
    cases ws with
    | nil => simp [weightedMax] at h
    | cons w ws =>
      simp only [weightedMax, Option.map_eq_some_iff] at h
      obtain ⟨r, hr, rfl⟩ := h
      simp [ih ws r hr]

theorem argMaxChild_value (cs : List ι) : ∀ (us : List F) (acc : Option ι × F), us.length = cs.length →
    (argMaxChild (cs.zip us) acc).2 = us.foldl (fun m u => if lt m u then u else m) acc.2 := by
  induction cs with
  | nil => intro us acc h; simp at h; subst h; rfl
  | cons c cs ih =>
    intro us acc h
    cases us with
    | nil => simp at h
    | cons u us =>
      obtain ⟨mc, mx⟩ := acc
      simp only [List.zip_cons_cons, argMaxChild, List.foldl_cons]
      rw [ih us _ (by simpa using h)]
      by_cases hl : lt mx u = true <;> simp [hl]

theorem mapM_length {α β : Type} {f : α → Option β} : ∀ {l : List α} {r : List β}, l.mapM f = some r → r.length = l.length := by
  intro l
  induction l with
  | nil => intro r h; simp at h; subst h; rfl
  | cons a l ih =>
    intro r h
    simp only [List.mapM_cons, Option.bind_eq_bind, Option.bind_eq_some_iff, Option.pure_def, Option.some.injEq] at h
    obtain ⟨b, _, r', h2, rfl⟩ := h
    simp [ih h2]

theorem mapM_of_pair {α β γ : Type} {f : α → Option (γ × β)} {g : α → Option β} :
    ∀ {l : List α} {r : List (γ × β)}, (∀ a ∈ l, ∀ p, f a = some p → g a = some p.2) → l.mapM f = some r → l.mapM g = some (r.map Prod.snd) := by
  intro l
  induction l with
  | nil => intro r _ h; simp at h; subst h; rfl
  | cons a l ih =>
    intro r hfg h
    simp only [List.mapM_cons, Option.bind_eq_bind, Option.bind_eq_some_iff, Option.pure_def, Option.some.injEq] at h
    obtain ⟨b, h1, r', h2, rfl⟩ := h
    simp only [List.mapM_cons, hfg a (by simp) b h1, ih (fun x hx => hfg x (by simp [hx])) h2]
    rfl

theorem foldl_pair_snd (rs : List (VarSet × F)) : ∀ (M : VarSet) (v : F),
    (rs.foldl (fun (M, v) r => (VarSet.override M r.1, add v r.2)) (M, v)).2 = (rs.map Prod.snd).foldl add v := by
  induction rs with
  | nil => intro M v; rfl
  | cons r rs ih => intro M v; simp only [List.foldl_cons, List.map_cons]; exact ih _ _

/-- The second result of `ArgMax` is `Max`. -/
theorem Net.argMax_value [Fintype ι] {N : Net ι F} (hac : Acyclic N.ch) (I : VarSet) {S : ι}
    (hleaf : ∀ n l, Reach N.ch S n → N.kind n = .leaf l → ∀ r, l.argMax I = some r → l.max I = some r.2) :
    ∀ n, Reach N.ch S n → ∀ r, N.argMax I n = some r → N.max I n = some r.2 := by
  obtain ⟨rank, hr⟩ := id hac
  intro n
  induction hn : rank n using Nat.strong_induction_on generalizing n with
  | _ k ih =>
    intro hreach r h
    have ihc : ∀ c ∈ N.ch n, ∀ p, N.argMax I c = some p → N.max I c = some p.2 := fun c hc p hp =>
      ih (rank c) (by rw [← hn]; exact hr n c hc) c rfl (Relation.ReflTransGen.tail hreach hc) p hp
    rw [argMax_unfold hac] at h
    rw [max_unfold hac]
    unfold argMaxStep at h; unfold maxStep
    unfold Net.ch at ihc
    cases hk : N.kind n with
    | leaf l => simp only [hk] at h ⊢; exact hleaf n l hreach hk r h
    | product cs =>
      simp only [hk, Option.map_eq_some_iff] at h ihc ⊢
      obtain ⟨rs, h1, rfl⟩ := h
      refine ⟨_, mapM_of_pair ihc h1, ?_⟩
      exact (foldl_pair_snd rs _ _).symm
    | sum cs w =>
      simp only [hk, Option.bind_eq_some_iff] at h ⊢
      obtain ⟨vs, h1, us, h2, h3⟩ := h
      refine ⟨vs, h1, ?_⟩
      rw [h2]
      have hl := argMaxChild_value cs us (none, ninf) ((weightedMax_length _ _ _ h2).trans (mapM_length h1))
      cases hc : argMaxChild (cs.zip us) (none, ninf) with
      | mk a m =>
        rw [hc] at h3 hl
        cases a with
        | none => simp at h3
        | some c =>
          simp only [Option.map_eq_some_iff] at h3
          obtain ⟨q, _, rfl⟩ := h3
          simp only [Option.map_some]
          exact congrArg some hl.symm

end Gospn
