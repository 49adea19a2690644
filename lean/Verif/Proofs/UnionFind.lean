import Verif.Model.UnionFind
import Verif.Spec.UnionFind
import Mathlib.Data.List.Nodup
import Mathlib.Algebra.Order.BigOperators.Group.List
import Mathlib.Tactic.Linarith
/-
Union-find.
-/
namespace Gospn
open Spec

@[simp] theorem setAt_self {α : Type} (m : Nat → α) (x : Nat) (v : α) : setAt m x v x = v := by simp [setAt]
theorem setAt_ne {α : Type} (m : Nat → α) {x z : Nat} (v : α) (h : z ≠ x) : setAt m x v z = m z := by simp [setAt, h]

/-- The number of representatives. -/
def UF.roots (u : UF) : Nat := (List.range u.size).countP (fun x => decide (u.pa x = x))

/-- The parents lead to the representatives given by `root`. -/
structure Forest (u : UF) (root : Nat → Nat) : Prop where
  pa_lt : ∀ x < u.size, u.pa x < u.size
  root_lt : ∀ x < u.size, root x < u.size
  root_pa : ∀ x < u.size, root (u.pa x) = root x
  root_fix : ∀ x < u.size, u.pa x = x → root x = x
  pa_root : ∀ x < u.size, u.pa (root x) = root x
  rank_lt : ∀ x < u.size, u.pa x ≠ x → u.rank x < u.rank (u.pa x)

theorem Forest.root_root {u : UF} {root : Nat → Nat} (h : Forest u root) {x : Nat} (hx : x < u.size) : root (root x) = root x :=
  h.root_fix _ (h.root_lt x hx) (h.pa_root x hx)

theorem Forest.pa_iff {u : UF} {root : Nat → Nat} (h : Forest u root) {x : Nat} (hx : x < u.size) : u.pa x = x ↔ root x = x :=
  ⟨h.root_fix x hx, fun e => by have := h.pa_root x hx; rwa [e] at this⟩

theorem Forest.rank_root {u : UF} {root : Nat → Nat} (h : Forest u root) (x : Nat) (hx : x < u.size) (hne : u.pa x ≠ x) : u.rank x < u.rank (root x) := by
  -- ranks grow along parents; induct on the gap to the largest rank
  obtain ⟨M, hM⟩ : ∃ M, ∀ z < u.size, u.rank z ≤ M := by
    refine ⟨((List.range u.size).map u.rank).sum, fun z hz => ?_⟩
    exact List.single_le_sum (fun _ _ => Nat.zero_le _) _ (List.mem_map_of_mem (List.mem_range.2 hz))
  induction hg : M - u.rank x using Nat.strongRecOn generalizing x with
  | ind g ih =>
    have h1 := h.rank_lt x hx hne
    have h2 := hM _ (h.pa_lt x hx)
    by_cases hp : u.pa (u.pa x) = u.pa x
    · rw [← h.root_pa x hx, h.root_fix _ (h.pa_lt x hx) hp]; exact h1
    · have := ih (M - u.rank (u.pa x)) (by omega) (u.pa x) (h.pa_lt x hx) hp rfl
      rw [h.root_pa x hx] at this; omega

/-- What `Find` does: it returns the representative and changes only parents. -/
theorem findLoop_spec {u : UF} {root : Nat → Nat} (h : Forest u root) (M : Nat) (hM : ∀ z < u.size, u.rank z < M) :
    ∀ (fuel x : Nat), x < u.size → M - u.rank x ≤ fuel →
      ∃ p, UF.findLoop fuel u x = some ({ u with pa := p }, root x) ∧ Forest { u with pa := p } root ∧ ∀ z < u.size, (p z = z ↔ u.pa z = z) := by
  intro fuel
  induction fuel with
  | zero => intro x hx hf; have := hM x hx; omega
  | succ fuel ih =>
    intro x hx hf
    unfold UF.findLoop
    by_cases hp : x = u.pa x
    · rw [if_neg (by simpa using hp)]
      refine ⟨u.pa, ?_, h, fun _ _ => Iff.rfl⟩
      rw [h.root_fix x hx hp.symm, ← hp]
    · rw [if_pos hp]
      have h1 := h.rank_lt x hx (Ne.symm hp)
      obtain ⟨p, e1, e2, e3⟩ := ih (u.pa x) (h.pa_lt x hx) (by have := hM x hx; omega)
      rw [e1, h.root_pa x hx]
      have hxr : root x ≠ x := fun e => hp ((h.pa_iff hx).2 e).symm
      have hpx : p x ≠ x := fun e => hp ((e3 x hx).1 e).symm
      have hrx := h.root_lt x hx
      refine ⟨setAt p x (root x), rfl, ⟨?_, h.root_lt, ?_, ?_, ?_, ?_⟩, ?_⟩
      · intro z hz
        by_cases hzx : z = x
        · subst hzx; simpa using hrx
        · simp only [setAt_ne _ _ hzx]; exact e2.pa_lt z hz
      · intro z hz
        by_cases hzx : z = x
        · subst hzx; simp only [setAt_self]; exact h.root_root hz
        · simp only [setAt_ne _ _ hzx]; exact e2.root_pa z hz
      · intro z hz he
        by_cases hzx : z = x
        · subst hzx; simp only [setAt_self] at he; exact he
        · simp only [setAt_ne _ _ hzx] at he; exact e2.root_fix z hz he
      · intro z hz
        have hne : root z ≠ x := by
          intro e
          apply hxr
          have := h.root_root hz
          rw [e] at this; exact this
        simp only [setAt_ne _ _ hne]; exact e2.pa_root z hz
      · intro z hz hne
        by_cases hzx : z = x
        · subst hzx; simp only [setAt_self]; exact h.rank_root z hz (Ne.symm hp)
        · simp only [setAt_ne _ _ hzx] at hne ⊢; exact e2.rank_lt z hz hne
      · intro z hz
        by_cases hzx : z = x
        · subst hzx
          simp only [setAt_self]
          exact ⟨fun e => absurd e hxr, fun e => absurd e.symm hp⟩
        · simp only [setAt_ne _ _ hzx]; exact e3 z hz

/-- The nodes of the tree under `x` in the lists of children. -/
def desc (ch : Nat → List Nat) : Nat → Nat → List Nat
  | 0, _ => []
  | fuel + 1, x => x :: (ch x).flatMap (desc ch fuel)

/-- The state after the unions `pairs`. -/
structure UFOk (u : UF) (root : Nat → Nat) (pairs : List (Nat × Nat)) : Prop where
  forest : Forest u root
  bound : ∀ x < u.size, u.rank x + u.roots ≤ u.size
  conn : ∀ x < u.size, ∀ y < u.size, (root x = root y ↔ Connected pairs x y)
  pairs_lt : ∀ p ∈ pairs, p.1 < u.size ∧ p.2 < u.size
  ch_rank : ∀ x < u.size, ∀ c ∈ u.ch x, c < u.size ∧ u.rank c < u.rank x
  ch_child : ∀ x < u.size, ∀ c ∈ u.ch x, u.pa c ≠ c
  tree : ∀ r < u.size, u.pa r = r → (desc u.ch (u.rank r + 1) r).Nodup ∧ ∀ z, z ∈ desc u.ch (u.rank r + 1) r ↔ z < u.size ∧ root z = r

theorem UF.roots_pos {u : UF} {root : Nat → Nat} (h : Forest u root) {x : Nat} (hx : x < u.size) : 0 < u.roots :=
  List.countP_pos_iff.2 ⟨root x, List.mem_range.2 (h.root_lt x hx), by simp [h.pa_root x hx]⟩

theorem UFOk.rank_lt_size {u : UF} {root : Nat → Nat} {pairs : List (Nat × Nat)} (h : UFOk u root pairs) : ∀ x < u.size, u.rank x < u.size := by
  intro x hx
  have h1 := h.bound x hx
  have h2 := UF.roots_pos h.forest hx
  omega

/-- `Find` returns the representative and keeps everything that matters. -/
theorem UFOk.find {u : UF} {root : Nat → Nat} {pairs : List (Nat × Nat)} (h : UFOk u root pairs) {x : Nat} (hx : x < u.size) :
    ∃ p, u.find x = some ({ u with pa := p }, root x) ∧ UFOk { u with pa := p } root pairs := by
  obtain ⟨p, e1, e2, e3⟩ := findLoop_spec h.forest u.size h.rank_lt_size u.size x hx (by omega)
  have hroots : UF.roots { u with pa := p } = u.roots := by
    unfold UF.roots
    apply List.countP_congr
    intro z hz
    have := e3 z (List.mem_range.1 hz)
    simp [this]
  refine ⟨p, e1, ⟨e2, ?_, h.conn, h.pairs_lt, h.ch_rank, fun x hx c hc e => h.ch_child x hx c hc ((e3 c (h.ch_rank x hx c hc).1).1 e), ?_⟩⟩
  · intro z hz; rw [hroots]; exact h.bound z hz
  · intro r hr hp; exact h.tree r hr ((e3 r hr).1 hp)

/-! ### Trees of children -/

theorem desc_congr {ch ch' : Nat → List Nat} : ∀ (f x : Nat), (∀ z ∈ desc ch f x, ch' z = ch z) → desc ch' f x = desc ch f x := by
  intro f
  induction f with
  | zero => intro x _; rfl
  | succ f ih =>
    intro x h
    simp only [desc]
    rw [h x (by simp [desc])]
    congr 1
    apply List.flatMap_congr
    intro c hc
    apply ih
    intro z hz
    apply h
    simp only [desc, List.mem_cons, List.mem_flatMap]
    exact Or.inr ⟨c, hc, hz⟩

theorem desc_fuel {u : UF} (h : ∀ x < u.size, ∀ c ∈ u.ch x, c < u.size ∧ u.rank c < u.rank x) :
    ∀ (f g x : Nat), x < u.size → u.rank x < f → u.rank x < g → desc u.ch f x = desc u.ch g x := by
  intro f
  induction f with
  | zero => intro g x _ hf; omega
  | succ f ih =>
    intro g x hx hf hg
    obtain ⟨g, rfl⟩ : ∃ g', g = g' + 1 := ⟨g - 1, by omega⟩
    simp only [desc]
    congr 1
    apply List.flatMap_congr
    intro c hc
    obtain ⟨h1, h2⟩ := h x hx c hc
    exact ih g c h1 (by omega) (by omega)

/-- `UFVarids` lists the ids of the tree of children. -/
theorem varidsLoop_eq {u : UF} (h : ∀ x < u.size, ∀ c ∈ u.ch x, c < u.size ∧ u.rank c < u.rank x) :
    ∀ (f x : Nat), x < u.size → u.rank x < f → u.varidsLoop f x = some ((desc u.ch f x).map u.varid) := by
  intro f
  induction f with
  | zero => intro x _ hf; omega
  | succ f ih =>
    intro x hx hf
    unfold UF.varidsLoop
    by_cases he : (u.ch x).length = 0
    · rw [if_pos he]
      have : u.ch x = [] := List.length_eq_zero_iff.1 he
      simp [desc, this]
    · rw [if_neg he]
      have aux : ∀ (l : List Nat) (acc : List Int), (∀ c ∈ l, c < u.size ∧ u.rank c < f) →
          l.foldlM (fun ch c => (UF.varidsLoop u f c).map (fun l => ch ++ l)) acc = some (acc ++ (l.flatMap (desc u.ch f)).map u.varid) := by
        intro l
        induction l with
        | nil => intro acc _; simp
        | cons c l ihl =>
          intro acc hl
          obtain ⟨h1, h2⟩ := hl c (by simp)
          simp only [List.foldlM_cons, ih c h1 h2, Option.map_some, Option.bind_eq_bind, Option.bind_some]
          rw [ihl _ (fun d hd => hl d (by simp [hd]))]
          simp
      rw [aux _ _ (fun c hc => ⟨(h x hx c hc).1, by have := (h x hx c hc).2; omega⟩)]
      simp [desc]

theorem UFOk.varids {u : UF} {root : Nat → Nat} {pairs : List (Nat × Nat)} (h : UFOk u root pairs) {r : Nat} (hr : r < u.size) (hp : u.pa r = r) :
    ∃ l : List Nat, u.varids r = some (l.map u.varid) ∧ l.Nodup ∧ ∀ z, z ∈ l ↔ z < u.size ∧ root z = r := by
  obtain ⟨h1, h2⟩ := h.tree r hr hp
  refine ⟨_, varidsLoop_eq h.ch_rank u.size r hr (h.rank_lt_size r hr), ?_, ?_⟩
  · rw [desc_fuel h.ch_rank u.size (u.rank r + 1) r hr (h.rank_lt_size r hr) (by omega)]; exact h1
  · rw [desc_fuel h.ch_rank u.size (u.rank r + 1) r hr (h.rank_lt_size r hr) (by omega)]; exact h2

/-! ### Making and linking sets -/

theorem Connected.mono {α : Type} {p q : List (α × α)} (h : ∀ x ∈ p, x ∈ q) {a b : α} (hc : Connected p a b) : Connected q a b :=
  Relation.EqvGen.mono (r := fun a b => (a, b) ∈ p) (p := fun a b => (a, b) ∈ q) (fun _ _ hx => h _ hx) _ _ hc

theorem Connected.bound {p : List (Nat × Nat)} {n : Nat} (h : ∀ x ∈ p, x.1 < n ∧ x.2 < n) {a b : Nat} (hc : Connected p a b) : a = b ∨ (a < n ∧ b < n) := by
  induction hc with
  | rel a b hab => exact Or.inr (h _ hab)
  | refl a => exact Or.inl rfl
  | symm a b _ ih => rcases ih with rfl | ih
                     · exact Or.inl rfl
                     · exact Or.inr ⟨ih.2, ih.1⟩
  | trans a b c _ _ ih1 ih2 =>
    rcases ih1 with rfl | ih1
    · exact ih2
    · rcases ih2 with rfl | ih2
      · exact Or.inr ih1
      · exact Or.inr ⟨ih1.1, ih2.2⟩

theorem UFOk.empty : UFOk UF.empty id [] :=
  ⟨⟨fun _ h => absurd h (by simp [UF.empty]), fun _ h => absurd h (by simp [UF.empty]), fun _ h => absurd h (by simp [UF.empty]),
    fun _ h => absurd h (by simp [UF.empty]), fun _ h => absurd h (by simp [UF.empty]), fun _ h => absurd h (by simp [UF.empty])⟩,
   fun _ h => absurd h (by simp [UF.empty]), fun _ h => absurd h (by simp [UF.empty]), by simp, fun _ h => absurd h (by simp [UF.empty]),
   fun _ h => absurd h (by simp [UF.empty]), fun _ h => absurd h (by simp [UF.empty])⟩

theorem UFOk.make {u : UF} {root : Nat → Nat} {pairs : List (Nat × Nat)} (h : UFOk u root pairs) (v : Int) :
    UFOk (u.makeSet v) (setAt root u.size u.size) pairs := by
  have hlt : ∀ x, x < (u.makeSet v).size → x = u.size ∨ (x ≠ u.size ∧ x < u.size) := by
    intro x hx
    have hx : x < u.size + 1 := hx
    omega
  have hroots : (u.makeSet v).roots = u.roots + 1 := by
    unfold UF.roots UF.makeSet
    simp only [List.range_succ, List.countP_append, List.countP_cons, List.countP_nil, setAt_self, decide_true, if_true]
    have : List.countP (fun x => decide (setAt u.pa u.size u.size x = x)) (List.range u.size) = List.countP (fun x => decide (u.pa x = x)) (List.range u.size) := by
      apply List.countP_congr
      intro z hz
      rw [setAt_ne _ _ (Nat.ne_of_lt (List.mem_range.1 hz))]
    omega
  refine ⟨⟨?_, ?_, ?_, ?_, ?_, ?_⟩, ?_, ?_, ?_, ?_, ?_, ?_⟩
  · intro x hx
    show setAt u.pa u.size u.size x < u.size + 1
    rcases hlt x hx with rfl | ⟨hn, hx⟩
    · simp
    · rw [setAt_ne _ _ hn]; have := h.forest.pa_lt x hx; omega
  · intro x hx
    show setAt root u.size u.size x < u.size + 1
    rcases hlt x hx with rfl | ⟨hn, hx⟩
    · simp
    · rw [setAt_ne _ _ hn]; have := h.forest.root_lt x hx; omega
  · intro x hx
    show setAt root u.size u.size (setAt u.pa u.size u.size x) = setAt root u.size u.size x
    rcases hlt x hx with rfl | ⟨hn, hx⟩
    · simp
    · rw [setAt_ne _ _ hn, setAt_ne root _ hn, setAt_ne root _ (Nat.ne_of_lt (h.forest.pa_lt x hx))]; exact h.forest.root_pa x hx
  · intro x hx
    show setAt u.pa u.size u.size x = x → setAt root u.size u.size x = x
    rcases hlt x hx with rfl | ⟨hn, hx⟩
    · simp
    · rw [setAt_ne _ _ hn, setAt_ne root _ hn]; exact h.forest.root_fix x hx
  · intro x hx
    show setAt u.pa u.size u.size (setAt root u.size u.size x) = setAt root u.size u.size x
    rcases hlt x hx with rfl | ⟨hn, hx⟩
    · simp
    · rw [setAt_ne root _ hn, setAt_ne _ _ (Nat.ne_of_lt (h.forest.root_lt x hx))]; exact h.forest.pa_root x hx
  · intro x hx
    show setAt u.pa u.size u.size x ≠ x → setAt u.rank u.size 0 x < setAt u.rank u.size 0 (setAt u.pa u.size u.size x)
    rcases hlt x hx with rfl | ⟨hn, hx⟩
    · simp
    · rw [setAt_ne _ _ hn, setAt_ne u.rank _ hn, setAt_ne u.rank _ (Nat.ne_of_lt (h.forest.pa_lt x hx))]; exact h.forest.rank_lt x hx
  · intro x hx
    rw [hroots]
    show setAt u.rank u.size 0 x + (u.roots + 1) ≤ u.size + 1
    rcases hlt x hx with rfl | ⟨hn, hx⟩
    · have : u.roots ≤ u.size := by unfold UF.roots; simpa using List.countP_le_length (l := List.range u.size) (p := fun x => decide (u.pa x = x))
      simp; omega
    · rw [setAt_ne _ _ hn]; have := h.bound x hx; omega
  · intro x hx y hy
    rcases hlt x hx with rfl | ⟨hn, hx⟩ <;> rcases hlt y hy with rfl | ⟨hm, hy⟩
    · simp only [true_iff]; exact Relation.EqvGen.refl _
    · rw [setAt_self, setAt_ne root _ hm]
      constructor
      · intro e; have := h.forest.root_lt y hy; omega
      · intro e; rcases Connected.bound h.pairs_lt e with e | e <;> omega
    · rw [setAt_self, setAt_ne root _ hn]
      constructor
      · intro e; have := h.forest.root_lt x hx; omega
      · intro e; rcases Connected.bound h.pairs_lt e with e | e <;> omega
    · rw [setAt_ne root _ hm, setAt_ne root _ hn]; exact h.conn x hx y hy
  · intro p hp
    obtain ⟨h1, h2⟩ := h.pairs_lt p hp
    exact ⟨Nat.lt_succ_of_lt h1, Nat.lt_succ_of_lt h2⟩
  · intro x hx
    show ∀ c ∈ setAt u.ch u.size [] x, c < u.size + 1 ∧ setAt u.rank u.size 0 c < setAt u.rank u.size 0 x
    rcases hlt x hx with rfl | ⟨hn, hx⟩
    · simp
    · rw [setAt_ne _ _ hn, setAt_ne _ _ hn]
      intro c hc
      obtain ⟨h1, h2⟩ := h.ch_rank x hx c hc
      rw [setAt_ne _ _ (Nat.ne_of_lt h1)]
      exact ⟨by omega, h2⟩
  · intro x hx
    show ∀ c ∈ setAt u.ch u.size [] x, setAt u.pa u.size u.size c ≠ c
    rcases hlt x hx with rfl | ⟨hn, hx⟩
    · simp
    · rw [setAt_ne _ _ hn]
      intro c hc
      rw [setAt_ne _ _ (Nat.ne_of_lt (h.ch_rank x hx c hc).1)]
      exact h.ch_child x hx c hc
  · intro r hr
    show setAt u.pa u.size u.size r = r → (desc (setAt u.ch u.size []) (setAt u.rank u.size 0 r + 1) r).Nodup ∧
      ∀ z, z ∈ desc (setAt u.ch u.size []) (setAt u.rank u.size 0 r + 1) r ↔ z < u.size + 1 ∧ setAt root u.size u.size z = r
    rcases hlt r hr with rfl | ⟨hn, hr⟩
    · intro _
      simp only [setAt_self, desc, List.flatMap_nil, List.nodup_cons, List.not_mem_nil, not_false_iff, List.nodup_nil, and_true, true_and, List.mem_singleton]
      intro z
      constructor
      · rintro rfl; simp
      · rintro ⟨hz, e⟩
        by_contra hne
        rw [setAt_ne _ _ hne] at e
        have := h.forest.root_lt z (by omega)
        omega
    · rw [setAt_ne _ _ hn, setAt_ne _ _ hn]
      intro hp
      obtain ⟨h1, h2⟩ := h.tree r hr hp
      rw [desc_congr _ _ (fun z hz => setAt_ne _ _ (Nat.ne_of_lt ((h2 z).1 hz).1))]
      refine ⟨h1, fun z => ?_⟩
      rw [h2 z]
      constructor
      · rintro ⟨a, b⟩; rw [setAt_ne _ _ (by omega)]; exact ⟨by omega, b⟩
      · rintro ⟨a, b⟩
        by_cases hz : z = u.size
        · subst hz; simp only [setAt_self] at b; exact absurd b.symm hn
        · rw [setAt_ne _ _ hz] at b; exact ⟨by omega, b⟩

/-- Hanging the representative `a` under the representative `b`. -/
def UF.link (u : UF) (a b : Nat) : UF :=
  { u with pa := setAt u.pa a b, ch := setAt u.ch b (u.ch b ++ [a]), rank := if u.rank a = u.rank b then setAt u.rank b (u.rank b + 1) else u.rank }

theorem UF.link_rank (u : UF) {a b : Nat} (hle : u.rank a ≤ u.rank b) (z : Nat) :
    (z ≠ b → (u.link a b).rank z = u.rank z) ∧ u.rank b ≤ (u.link a b).rank b ∧ u.rank a < (u.link a b).rank b ∧
    (u.link a b).rank b ≤ u.rank b + 1 := by
  unfold UF.link
  dsimp only
  by_cases he : u.rank a = u.rank b
  · simp only [he, if_true, setAt_self]
    exact ⟨fun hz => setAt_ne _ _ hz, by omega, by omega, by omega⟩
  · simp only [he, if_false]
    exact ⟨fun _ => by simp, by simp, by show u.rank a < u.rank b; omega, by simp⟩

theorem UFOk.link {u : UF} {root : Nat → Nat} {pairs : List (Nat × Nat)} (h : UFOk u root pairs) {a b x y : Nat}
    (ha : a < u.size) (hb : b < u.size) (hpa : u.pa a = a) (hpb : u.pa b = b) (hab : a ≠ b) (hle : u.rank a ≤ u.rank b)
    (hx : x < u.size) (hy : y < u.size) (hxy : (root x = a ∧ root y = b) ∨ (root x = b ∧ root y = a)) :
    UFOk (u.link a b) (fun z => if root z = a then b else root z) (pairs ++ [(x, y)]) := by
  have hF := h.forest
  have hra : root a = a := hF.root_fix a ha hpa
  have hrb : root b = b := hF.root_fix b hb hpb
  have hrk := fun z => (u.link_rank (a := a) (b := b) hle z).1
  obtain ⟨-, hk1, hk2, hk3⟩ := u.link_rank (a := a) (b := b) hle 0
  have hpaA : (u.link a b).pa a = b := by simp [UF.link]
  have hpaN : ∀ z, z ≠ a → (u.link a b).pa z = u.pa z := fun z hz => by simp [UF.link, setAt_ne _ _ hz]
  have hchB : (u.link a b).ch b = u.ch b ++ [a] := by simp [UF.link]
  have hchN : ∀ z, z ≠ b → (u.link a b).ch z = u.ch z := fun z hz => by simp [UF.link, setAt_ne _ _ hz]
  have hsz : (u.link a b).size = u.size := rfl
  have hroots : (u.link a b).roots + 1 = u.roots := by
    have hmem : a ∈ List.range u.size := List.mem_range.2 ha
    unfold UF.roots
    rw [hsz]
    have h1 : List.countP (fun x => decide ((u.link a b).pa x = x)) (List.range u.size) =
        List.countP (fun x => decide (u.pa x = x) && !decide (x = a)) (List.range u.size) := by
      apply List.countP_congr
      intro z _
      by_cases hz : z = a
      · subst hz; simp [hpaA, Ne.symm hab]
      · simp [hpaN z hz, hz]
    have h2 : List.countP (fun x => decide (u.pa x = x)) (List.range u.size) =
        List.countP (fun x => decide (u.pa x = x) && !decide (x = a)) (List.range u.size) + List.countP (fun x => decide (x = a)) (List.range u.size) := by
      have : ∀ l : List Nat, List.countP (fun x => decide (u.pa x = x)) l =
        List.countP (fun x => decide (u.pa x = x) && !decide (x = a)) l + List.countP (fun x => decide (x = a)) l := by
        intro l
        induction l with
        | nil => rfl
        | cons z l ih =>
          simp only [List.countP_cons, ih]
          by_cases hz : z = a
          · subst hz; simp [hpa]; omega
          · simp [hz]; omega
      exact this _
    have h3 : List.countP (fun x => decide (x = a)) (List.range u.size) = 1 := by
      have : List.count a (List.range u.size) = 1 := List.count_eq_one_of_mem List.nodup_range hmem
      rw [← this, List.count]
      apply List.countP_congr
      intro z _; simp
    omega
  refine ⟨⟨?_, ?_, ?_, ?_, ?_, ?_⟩, ?_, ?_, ?_, ?_, ?_, ?_⟩
  · intro z hz
    rw [hsz]
    by_cases hza : z = a
    · subst hza; rw [hpaA]; exact hb
    · rw [hpaN z hza]; exact hF.pa_lt z hz
  · intro z hz
    try dsimp only
    split
    · exact hb
    · exact hF.root_lt z hz
  · intro z hz
    try dsimp only
    by_cases hza : z = a
    · subst hza; rw [hpaA, hrb, if_neg (Ne.symm hab), hra, if_pos rfl]
    · rw [hpaN z hza, hF.root_pa z hz]
  · intro z hz he
    try dsimp only
    by_cases hza : z = a
    · subst hza; rw [hpaA] at he; exact absurd he.symm hab
    · rw [hpaN z hza] at he
      rw [hF.root_fix z hz he, if_neg hza]
  · intro z hz
    try dsimp only
    split
    · rw [hpaN b (Ne.symm hab)]; exact hpb
    · rename_i hne
      rw [hpaN _ hne]; exact hF.pa_root z hz
  · intro z hz hne
    by_cases hza : z = a
    · subst hza; rw [hpaA, hrk z hab]; exact hk2
    · rw [hpaN z hza] at hne ⊢
      have h1 := hF.rank_lt z hz hne
      have hzb : z ≠ b := fun e => hne (by rw [e]; exact hpb)
      rw [hrk z hzb]
      by_cases hpz : u.pa z = b
      · rw [hpz] at h1 ⊢; omega
      · rw [hrk _ hpz]; exact h1
  · intro z hz
    rw [hsz]
    by_cases hzb : z = b
    · subst hzb; have := h.bound z hz; omega
    · rw [hrk z hzb]; have := h.bound z hz; omega
  · intro p hp q hq
    have hmono : ∀ {p q : Nat}, Connected pairs p q → Connected (pairs ++ [(x, y)]) p q := fun hc => Connected.mono (fun _ hz => by simp [hz]) hc
    have hlink : Connected (pairs ++ [(x, y)]) x y := Relation.EqvGen.rel _ _ (by simp)
    have hcr : ∀ {p q : Nat}, p < u.size → q < u.size → root p = root q → Connected (pairs ++ [(x, y)]) p q := fun h1 h2 e => hmono ((h.conn _ h1 _ h2).1 e)
    constructor
    · intro he
      try dsimp only at he
      by_cases h1 : root p = a <;> by_cases h2 : root q = a
      · exact hcr hp hq (h1.trans h2.symm)
      · rw [if_pos h1, if_neg h2] at he
        rcases hxy with ⟨e1, e2⟩ | ⟨e1, e2⟩
        · exact ((hcr hp hx (h1.trans e1.symm)).trans _ _ _ hlink).trans _ _ _ (hcr hy hq (e2.trans he))
        · exact ((hcr hp hy (h1.trans e2.symm)).trans _ _ _ (hlink.symm _ _)).trans _ _ _ (hcr hx hq (e1.trans he))
      · rw [if_neg h1, if_pos h2] at he
        rcases hxy with ⟨e1, e2⟩ | ⟨e1, e2⟩
        · exact ((hcr hp hy (he.trans e2.symm)).trans _ _ _ (hlink.symm _ _)).trans _ _ _ (hcr hx hq (e1.trans h2.symm))
        · exact ((hcr hp hx (he.trans e1.symm)).trans _ _ _ hlink).trans _ _ _ (hcr hy hq (e2.trans h2.symm))
      · rw [if_neg h1, if_neg h2] at he; exact hcr hp hq he
    · intro hc
      clear hp hq
      induction hc with
      | rel p q hpq =>
        rcases List.mem_append.1 hpq with hpq | hpq
        · obtain ⟨h1, h2⟩ := h.pairs_lt _ hpq
          have : root p = root q := (h.conn p h1 q h2).2 (Relation.EqvGen.rel _ _ hpq)
          try dsimp only
          rw [this]
        · simp only [List.mem_singleton, Prod.mk.injEq] at hpq
          obtain ⟨rfl, rfl⟩ := hpq
          rcases hxy with ⟨e1, e2⟩ | ⟨e1, e2⟩ <;> rw [e1, e2] <;> simp [Ne.symm hab]
      | refl p => rfl
      | symm p q _ ih => exact ih.symm
      | trans p q r _ _ ih1 ih2 => exact ih1.trans ih2
  · intro p hp
    rcases List.mem_append.1 hp with hp | hp
    · exact h.pairs_lt p hp
    · simp only [List.mem_singleton] at hp; subst hp; exact ⟨hx, hy⟩
  · intro z hz c hc
    rw [hsz]
    by_cases hzb : z = b
    · subst hzb
      rw [hchB, List.mem_append] at hc
      rcases hc with hc | hc
      · obtain ⟨h1, h2⟩ := h.ch_rank z hz c hc
        have hcz : c ≠ z := by rintro rfl; omega
        rw [hrk c hcz]; exact ⟨h1, by omega⟩
      · simp only [List.mem_singleton] at hc
        subst hc
        rw [hrk c hab]; exact ⟨ha, hk2⟩
    · rw [hchN z hzb] at hc
      obtain ⟨h1, h2⟩ := h.ch_rank z hz c hc
      rw [hrk z hzb]
      refine ⟨h1, ?_⟩
      by_cases hcb : c = b
      · subst hcb; exact absurd hpb (h.ch_child z hz c hc)
      · rw [hrk c hcb]; exact h2
  · intro z hz c hc
    by_cases hca : c = a
    · subst hca; rw [hpaA]; exact Ne.symm hab
    · rw [hpaN c hca]
      by_cases hzb : z = b
      · subst hzb
        rw [hchB, List.mem_append] at hc
        rcases hc with hc | hc
        · exact h.ch_child z hz c hc
        · exact absurd (List.mem_singleton.1 hc) hca
      · rw [hchN z hzb] at hc; exact h.ch_child z hz c hc
  · intro r hr hp
    rw [hsz]
    have hra' : r ≠ a := by rintro rfl; rw [hpaA] at hp; exact hab hp.symm
    rw [hpaN r hra'] at hp
    obtain ⟨t1, t2⟩ := h.tree r hr hp
    by_cases hrb' : r = b
    · subst hrb'
      obtain ⟨s1, s2⟩ := h.tree a ha hpa
      have hnb : ∀ c ∈ u.ch r, ∀ z ∈ desc u.ch (u.rank r) c, z ≠ r := by
        intro c hc z hz e
        subst e
        simp only [desc, List.nodup_cons] at t1
        exact t1.1 (List.mem_flatMap.2 ⟨c, hc, hz⟩)
      have e : desc (u.link a r).ch ((u.link a r).rank r + 1) r = desc u.ch (u.rank r + 1) r ++ desc u.ch (u.rank a + 1) a := by
        simp only [desc, hchB, List.flatMap_append, List.flatMap_cons, List.flatMap_nil, List.append_nil, List.cons_append]
        congr 2
        · apply List.flatMap_congr
          intro c hc
          obtain ⟨h1, h2⟩ := h.ch_rank r hr c hc
          have e1 : desc u.ch ((u.link a r).rank r) c = desc u.ch (u.rank r) c := desc_fuel h.ch_rank _ _ c h1 (by omega) (by omega)
          rw [desc_congr _ _ ?_, e1]
          intro z hz
          rw [e1] at hz
          exact hchN z (hnb c hc z hz)
        · have e1 : desc u.ch ((u.link a r).rank r) a = desc u.ch (u.rank a + 1) a := desc_fuel h.ch_rank _ _ a ha (by omega) (by omega)
          rw [desc_congr _ _ ?_, e1]
          · simp [desc]
          · intro z hz
            rw [e1, s2] at hz
            apply hchN
            rintro rfl
            exact hab (hz.2.symm.trans hrb)
      rw [e]
      refine ⟨List.nodup_append.2 ⟨t1, s1, ?_⟩, ?_⟩
      · intro z hz w hw e
        subst e
        exact hab (((s2 z).1 hw).2.symm.trans ((t2 z).1 hz).2)
      · intro z
        rw [List.mem_append, t2, s2]
        constructor
        · rintro (⟨h1, h2⟩ | ⟨h1, h2⟩)
          · refine ⟨h1, ?_⟩; rw [if_neg (by rw [h2]; exact Ne.symm hab)]; exact h2
          · exact ⟨h1, if_pos h2⟩
        · rintro ⟨h1, h2⟩
          by_cases hz : root z = a
          · exact Or.inr ⟨h1, hz⟩
          · rw [if_neg hz] at h2; exact Or.inl ⟨h1, h2⟩
    · rw [hrk r hrb']
      have hnb : ∀ z ∈ desc u.ch (u.rank r + 1) r, z ≠ b := by
        rintro z hz rfl
        exact hrb' (((t2 z).1 hz).2.symm.trans hrb)
      rw [desc_congr _ _ (fun z hz => hchN z (hnb z hz))]
      refine ⟨t1, fun z => ?_⟩
      rw [t2 z]
      constructor
      · rintro ⟨h1, h2⟩; refine ⟨h1, ?_⟩; rw [if_neg (by rw [h2]; exact hra')]; exact h2
      · rintro ⟨h1, h2⟩
        by_cases hz : root z = a
        · rw [if_pos hz] at h2; exact absurd h2.symm hrb'
        · rw [if_neg hz] at h2; exact ⟨h1, h2⟩

theorem UFOk.redundant {u : UF} {root : Nat → Nat} {pairs : List (Nat × Nat)} (h : UFOk u root pairs) {x y : Nat}
    (hx : x < u.size) (hy : y < u.size) (he : root x = root y) : UFOk u root (pairs ++ [(x, y)]) := by
  refine ⟨h.forest, h.bound, ?_, ?_, h.ch_rank, h.ch_child, h.tree⟩
  · intro p hp q hq
    rw [h.conn p hp q hq]
    constructor
    · exact Connected.mono (fun _ hz => by simp [hz])
    · intro hc
      have hxy := (h.conn x hx y hy).1 he
      clear hp hq
      induction hc with
      | rel p q hpq =>
        rcases List.mem_append.1 hpq with hpq | hpq
        · exact Relation.EqvGen.rel _ _ hpq
        · simp only [List.mem_singleton, Prod.mk.injEq] at hpq
          obtain ⟨rfl, rfl⟩ := hpq
          exact hxy
      | refl p => exact Relation.EqvGen.refl _
      | symm p q _ ih => exact ih.symm _ _
      | trans p q r _ _ ih1 ih2 => exact ih1.trans _ _ _ ih2
  · intro p hp
    rcases List.mem_append.1 hp with hp | hp
    · exact h.pairs_lt p hp
    · simp only [List.mem_singleton] at hp; subst hp; exact ⟨hx, hy⟩

theorem UFOk.union {u : UF} {root : Nat → Nat} {pairs : List (Nat × Nat)} (h : UFOk u root pairs) {x y : Nat} (hx : x < u.size) (hy : y < u.size) :
    ∃ u' res root', u.union x y = some (u', res) ∧ UFOk u' root' (pairs ++ [(x, y)]) ∧ u'.size = u.size ∧ u'.varid = u.varid ∧
      (res = none ↔ root x = root y) ∧ (∀ r k, res = some (r, k) → root' x = r ∧ ((k = 1 ∧ r = root x) ∨ (k = 2 ∧ r = root y))) := by
  obtain ⟨p1, e1, o1⟩ := h.find hx
  obtain ⟨p2, e2, o2⟩ := o1.find (x := y) hy
  unfold UF.union
  rw [e1]; simp only [Option.bind_some]
  rw [e2]; simp only [Option.bind_some]
  have hrx := h.forest.root_lt x hx
  have hry := h.forest.root_lt y hy
  by_cases he : root x = root y
  · rw [if_pos he]
    exact ⟨_, _, root, rfl, o2.redundant hx hy he, rfl, rfl, by simp [he], by simp⟩
  · rw [if_neg he]
    by_cases hk : u.rank (root x) > u.rank (root y)
    · rw [if_pos hk]
      have hl := o2.link (a := root y) (b := root x) (x := x) (y := y) hry hrx (o2.forest.pa_root y hy) (o2.forest.pa_root x hx) (Ne.symm he) (Nat.le_of_lt hk) hx hy
        (Or.inr ⟨rfl, rfl⟩)
      refine ⟨_, _, (fun z => if root z = root y then root x else root z), rfl, ?_, rfl, rfl, by simp [he], ?_⟩
      · have hne : ¬ u.rank (root y) = u.rank (root x) := by omega
        have : UF.link { u with pa := p2 } (root y) (root x) = { u with pa := setAt p2 (root y) (root x), ch := setAt u.ch (root x) (u.ch (root x) ++ [root y]) } := by
          unfold UF.link; simp only [hne, if_false]
        rw [this] at hl; exact hl
      · rintro r k hrk
        simp only [Option.some.injEq, Prod.mk.injEq] at hrk
        obtain ⟨rfl, rfl⟩ := hrk
        refine ⟨?_, Or.inl ⟨rfl, rfl⟩⟩
        exact if_neg he
    · rw [if_neg hk]
      have hl := o2.link (a := root x) (b := root y) (x := x) (y := y) hrx hry (o2.forest.pa_root x hx) (o2.forest.pa_root y hy) he (Nat.le_of_not_lt hk) hx hy
        (Or.inl ⟨rfl, rfl⟩)
      refine ⟨_, _, _, rfl, hl, rfl, rfl, by simp [he], ?_⟩
      rintro r k hrk
      simp only [Option.some.injEq, Prod.mk.injEq] at hrk
      obtain ⟨rfl, rfl⟩ := hrk
      exact ⟨by simp, Or.inr ⟨rfl, rfl⟩⟩

/-! ### Programs -/

/-- The ids of the nodes. -/
def UF.ids (u : UF) : List Int := (List.range u.size).map u.varid

theorem UF.ids_make (u : UF) (v : Int) : (u.makeSet v).ids = u.ids ++ [v] := by
  unfold UF.ids UF.makeSet
  simp only [List.range_succ, List.map_append, List.map_cons, List.map_nil, setAt_self]
  congr 1
  apply List.map_congr_left
  intro z hz
  exact setAt_ne _ _ (Nat.ne_of_lt (List.mem_range.1 hz))

theorem UFOk.run {u : UF} {root : Nat → Nat} {pairs : List (Nat × Nat)} (h : UFOk u root pairs) (ops : List UFOp) (hv : ValidOps u.size ops) :
    ∃ u' root', u.run ops = some u' ∧ UFOk u' root' (pairs ++ unions ops) ∧ u'.ids = u.ids ++ madeIds ops := by
  induction ops generalizing u root pairs with
  | nil => exact ⟨u, root, rfl, by simpa [unions] using h, by simp [madeIds]⟩
  | cons op ops ih =>
    cases op with
    | make v =>
      obtain ⟨u', root', e1, e2, e3⟩ := ih (h.make v) hv
      exact ⟨u', root', by simpa [UF.run, UF.step] using e1, e2, by rw [e3, UF.ids_make]; simp [madeIds]⟩
    | find x =>
      obtain ⟨hx, hv⟩ := hv
      obtain ⟨p, e, o⟩ := h.find hx
      obtain ⟨u', root', e1, e2, e3⟩ := ih o hv
      exact ⟨u', root', by simpa [UF.run, UF.step, hx, e] using e1, e2, by rw [e3]; rfl⟩
    | union x y =>
      obtain ⟨hx, hy, hv⟩ := hv
      obtain ⟨u1, res, r1, e, o, hs, hi, -⟩ := h.union hx hy
      obtain ⟨u', root', e1, e2, e3⟩ := ih o (by rw [hs]; exact hv)
      refine ⟨u', root', by simpa [UF.run, UF.step, hx, hy, e] using e1, by simpa [unions] using e2, ?_⟩
      rw [e3]; simp only [UF.ids, hs, hi, madeIds]

end Gospn
