import Verif.Proofs.DeriveWeights
import Verif.Proofs.MapStore
import Verif.Spec.Hard
import Verif.Spec.Structure
set_option linter.unusedSectionVars false
namespace Gospn
open Spec GoFloat

variable {ι : Type} [DecidableEq ι] [Fintype ι]

section
variable {F : Type} [GoFloat F]

/-! ### The trace graph -/

/-- The position `TraceMAP` chooses at a sum node. -/
def Net.trIdx (N : Net ι F) (get : ι → F) (pick : ι → Nat → Nat) (n : ι) : Option Nat :=
  match N.kind n with
  | .sum cs w => traceChoice get (pick n) cs w
  | _ => none

/-- The nodes `TraceMAP` goes on with. -/
def Net.trCand (N : Net ι F) (get : ι → F) (pick : ι → Nat → Nat) (n : ι) : List ι :=
  match N.kind n with
  | .sum cs _ => ((N.trIdx get pick n).bind (cs[·]?)).toList
  | .product cs => cs
  | .leaf _ => []

theorem tied_sub {α : Type} (l : List (α × F)) : ∀ (mv : List α) (m : F), ∀ d ∈ (tiedChildren l (mv, m)).1, d ∈ mv ∨ d ∈ l.map Prod.fst := by
  induction l with
  | nil => intro mv m d hd; exact Or.inl hd
  | cons p l ih =>
    intro mv m d hd
    simp only [tiedChildren] at hd
    split at hd
    · rcases ih _ _ d hd with h | h
      · simp at h; subst h; simp
      · simp [h]
    · split at hd
      · rcases ih _ _ d hd with h | h
        · rcases List.mem_append.1 h with h | h
          · exact Or.inl h
          · simp at h; subst h; simp
        · simp only [List.map_cons, List.mem_cons]; tauto
      · rcases ih _ _ d hd with h | h
        · exact Or.inl h
        · simp only [List.map_cons, List.mem_cons]; tauto

theorem traceChoice_lt {get : ι → F} {pick : Nat → Nat} {cs : List ι} {w : List F} {i : Nat} (h : traceChoice get pick cs w = some i) : i < cs.length := by
  simp only [traceChoice, Option.bind_eq_some_iff] at h
  obtain ⟨us, h1, h2⟩ := h
  have hlen := weightedMax_length _ _ _ h1
  split at h2
  · cases h2
  · rcases tied_sub _ _ _ i (List.mem_of_getElem? h2) with h | h
    · cases h
    · simp only [List.map_map, List.mem_map] at h
      obtain ⟨p, hp, rfl⟩ := h
      have := List.snd_lt_of_mem_zipIdx hp
      simpa [hlen] using this

variable {N : Net ι F} {S : ι} {get : ι → F} {pick : ι → Nat → Nat}

theorem trIdx_lt {n : ι} {cs : List ι} {w : List F} (hk : N.kind n = .sum cs w) {i : Nat} (h : N.trIdx get pick n = some i) : i < cs.length := by
  simp only [Net.trIdx, hk] at h; exact traceChoice_lt h

theorem trCand_sub {n c : ι} (h : c ∈ N.trCand get pick n) : c ∈ N.ch n := by
  unfold Net.trCand at h; unfold Net.ch
  cases hk : N.kind n with
  | leaf l => simp [hk] at h
  | product cs => simpa [hk] using h
  | sum cs w =>
    simp only [hk, Option.mem_toList, Option.bind_eq_some_iff] at h
    obtain ⟨i, _, h⟩ := h
    exact List.mem_of_getElem? h

theorem trReach_sub {a b : ι} (h : Reach (N.trCand get pick) a b) : Reach N.ch a b := by
  induction h with
  | refl => exact Relation.ReflTransGen.refl
  | tail _ hc ih => exact Relation.ReflTransGen.tail ih (trCand_sub hc)

/-- The update of `P` and `V` at a node. -/
def Net.trUpd (N : Net ι F) (get : ι → F) (pick : ι → Nat → Nat) (x : (ι → Option Nat) × Finset ι) (s : ι) : Option ((ι → Option Nat) × Finset ι) :=
  match N.kind s with
  | .sum cs _ =>
    (N.trIdx get pick s).bind fun i => (cs[i]?).map fun mvc =>
      if mvc ∈ x.2 then x else (Function.update x.1 s (some i), insert mvc x.2)
  | .product cs => some (x.1, x.2 ∪ cs.toFinset)
  | .leaf _ => some x

theorem traceStep_eq (x : (ι → Option Nat) × Finset ι) (s : ι) :
    N.traceStep get pick x s = (N.trUpd get pick x s).map fun y => (y, some (N.trCand get pick s)) := by
  unfold Net.traceStep Net.trUpd Net.trCand
  cases hk : N.kind s with
  | leaf l => rfl
  | product cs => rfl
  | sum cs w =>
    have e : N.trIdx get pick s = traceChoice get (pick s) cs w := by simp [Net.trIdx, hk]
    rw [e]
    cases hc : traceChoice get (pick s) cs w with
    | none => simp [hc]
    | some i =>
      simp only [Option.bind_some, hc]
      cases hi : cs[i]? with
      | none => rfl
      | some c =>
        simp only [Option.map_some, Option.toList]
        split <;> rfl

theorem no_cycle (hac : Acyclic N.ch) {u c : ι} (hc : c ∈ N.ch u) : ¬ Reach N.ch c u := by
  obtain ⟨rank, hr⟩ := hac
  have : ∀ a b, Reach N.ch a b → rank b ≤ rank a := by
    intro a b h
    induction h with
    | refl => exact Nat.le_refl _
    | tail _ hc ih => exact Nat.le_trans (Nat.le_of_lt (hr _ _ hc)) ih
  intro h
  have h1 := this _ _ h
  have h2 := hr u c hc
  omega

/-- Every node below `S` has a variable in its scope if all childless nodes are leaves. -/
theorem scope_nonempty (hac : Acyclic N.ch) (hl : LeavesAreLeaves N S) {n : ι} (hn : Reach N.ch S n) : ∃ v, InScope N n v := by
  obtain ⟨rank, hr⟩ := id hac
  induction hm : rank n using Nat.strong_induction_on generalizing n with
  | _ k ih =>
    cases hk : N.kind n with
    | leaf l => exact ⟨leafVar l, n, l, Relation.ReflTransGen.refl, hk, rfl⟩
    | sum cs w =>
      have := hl n hn (by simp [Net.type, hk])
      obtain ⟨c, hc⟩ := List.exists_mem_of_ne_nil _ this
      obtain ⟨v, m, l, h1, h2⟩ := ih (rank c) (by rw [← hm]; exact hr n c hc) (Relation.ReflTransGen.tail hn hc) rfl
      exact ⟨v, m, l, Relation.ReflTransGen.head hc h1, h2⟩
    | product cs =>
      have := hl n hn (by simp [Net.type, hk])
      obtain ⟨c, hc⟩ := List.exists_mem_of_ne_nil _ this
      obtain ⟨v, m, l, h1, h2⟩ := ih (rank c) (by rw [← hm]; exact hr n c hc) (Relation.ReflTransGen.tail hn hc) rfl
      exact ⟨v, m, l, Relation.ReflTransGen.head hc h1, h2⟩

/-- Two candidates of one node that lead to a common node are the same. -/
theorem trCand_apart (hac : Acyclic N.ch) (hd : IsDecomposable N S) (hl : LeavesAreLeaves N S) {n : ι} (hn : Reach N.ch S n) {c d m : ι}
    (hc : c ∈ N.trCand get pick n) (hdn : d ∈ N.trCand get pick n) (hcm : Reach N.ch c m) (hdm : Reach N.ch d m) : c = d := by
  unfold Net.trCand at hc hdn
  cases hk : N.kind n with
  | leaf l => simp [hk] at hc
  | sum cs w =>
    simp only [hk, Option.mem_toList] at hc hdn
    rw [hc] at hdn; exact Option.some.inj hdn
  | product cs =>
    simp only [hk] at hc hdn
    by_contra hne
    have hrm : Reach N.ch S m := (Relation.ReflTransGen.tail hn (by simpa [Net.ch, hk] using hc : c ∈ N.ch n)).trans hcm
    obtain ⟨v, x, l, h1, h2⟩ := scope_nonempty hac hl hrm
    have hsc : InScope N c v := ⟨x, l, hcm.trans h1, h2⟩
    have hsd : InScope N d v := ⟨x, l, hdm.trans h1, h2⟩
    have hsym : cs.Pairwise (fun c d => ¬ (InScope N c v ∧ InScope N d v)) := (hd n hn cs hk).imp (fun h => h _)
    have q1 : cs.Pairwise (fun c d => c ≠ d → ¬ (InScope N c v ∧ InScope N d v)) := by
      refine hsym.imp ?_; intro _ _ h _; exact h
    have q2 : cs.Pairwise (fun d c => c ≠ d → ¬ (InScope N c v ∧ InScope N d v)) := hsym.imp (fun h _ h' => h ⟨h'.2, h'.1⟩)
    exact (List.Pairwise.forall_of_forall_of_flip (by intro x _ hx; exact absurd rfl hx) q1 q2) hc hdn hne ⟨hsc, hsd⟩

/-- The trace is a tree: no node of it has two parents. -/
theorem trace_tree (hac : Acyclic N.ch) (hd : IsDecomposable N S) (hl : LeavesAreLeaves N S) : ∀ n, Reach N.ch S n → ∀ u u' m,
    Reach (N.trCand get pick) n u → Reach (N.trCand get pick) n u' → m ∈ N.trCand get pick u → m ∈ N.trCand get pick u' → u = u' := by
  obtain ⟨rank, hr⟩ := id hac
  intro n
  induction hn : rank n using Nat.strong_induction_on generalizing n with
  | _ k ih =>
    intro hreach u u' m hu hu' hm hm'
    have hmu : Reach N.ch u m := Relation.ReflTransGen.single (trCand_sub hm)
    have hmu' : Reach N.ch u' m := Relation.ReflTransGen.single (trCand_sub hm')
    rcases Relation.ReflTransGen.cases_head hu with rfl | ⟨c, hc, hcu⟩
    · rcases Relation.ReflTransGen.cases_head hu' with rfl | ⟨d, hdn, hdu⟩
      · rfl
      · have := trCand_apart hac hd hl hreach hm hdn Relation.ReflTransGen.refl ((trReach_sub hdu).trans hmu')
        subst this
        exact absurd (trReach_sub hdu) (no_cycle hac (trCand_sub hm'))
    · rcases Relation.ReflTransGen.cases_head hu' with rfl | ⟨d, hdn, hdu⟩
      · have := trCand_apart hac hd hl hreach hm' hc Relation.ReflTransGen.refl ((trReach_sub hcu).trans hmu)
        subst this
        exact absurd (trReach_sub hcu) (no_cycle hac (trCand_sub hm))
      · have := trCand_apart hac hd hl hreach hc hdn ((trReach_sub hcu).trans hmu) ((trReach_sub hdu).trans hmu')
        subst this
        exact ih (rank c) (by rw [← hn]; exact hr n c (trCand_sub hc)) c rfl (Relation.ReflTransGen.tail hreach (trCand_sub hc)) u u' m hcu hdu hm hm'

/-- The second part of `TraceMAP` records the choice of every sum node of the trace. -/
theorem traceLoop_spec (hac : Acyclic N.ch) (hd : IsDecomposable N S) (hl : LeavesAreLeaves N S) {P : (ι → Option Nat) × Finset ι}
    (h : work (N.traceStep get pick) false S (fun _ => none, {S}) = some P) :
    (∀ n, Reach (N.trCand get pick) S n → P.1 n = N.trIdx get pick n ∧ (N.type n = .sum → N.trIdx get pick n ≠ none)) ∧
      ∀ n, ¬ Reach (N.trCand get pick) S n → P.1 n = none := by
  rw [work_static _ (N.trUpd get pick) (N.trCand get pick) traceStep_eq] at h
  have hls := workOrder_lists (N.trCand get pick) false S
  have htree := trace_tree (get := get) (pick := pick) hac hd hl S Relation.ReflTransGen.refl
  have key : ∀ (l before : List ι) (x : (ι → Option Nat) × Finset ι), (before ++ l).Nodup → (∀ n ∈ before ++ l, Reach (N.trCand get pick) S n) →
      (∀ n, x.1 n = if n ∈ before then N.trIdx get pick n else none) →
      (∀ v, v ∈ x.2 ↔ v = S ∨ ∃ u ∈ before, v ∈ N.trCand get pick u) →
      (∀ n ∈ before, N.type n = .sum → N.trIdx get pick n ≠ none) →
      l.foldlM (N.trUpd get pick) x = some P →
      (∀ n, P.1 n = if n ∈ before ++ l then N.trIdx get pick n else none) ∧ ∀ n ∈ before ++ l, N.type n = .sum → N.trIdx get pick n ≠ none := by
    intro l
    induction l with
    | nil =>
      intro before x _ _ h1 _ h3 hf
      simp at hf; subst hf
      simpa using ⟨h1, h3⟩
    | cons s l ih =>
      intro before x hnd hre h1 h2 h3 hf
      rw [List.foldlM_cons] at hf
      simp only [bind, Option.bind_eq_some_iff] at hf
      obtain ⟨y, hy, hf⟩ := hf
      have hsb : s ∉ before := by
        intro hs
        have := List.nodup_append.1 hnd
        exact this.2.2 s hs s (by simp) rfl
      have hsr : Reach (N.trCand get pick) S s := hre s (by simp)
      have := ih (before ++ [s]) y (by simpa using hnd) (by simpa using hre) ?_ ?_ ?_ hf
      · simpa using this
      · intro n
        unfold Net.trUpd at hy
        cases hk : N.kind s with
        | leaf l' =>
          simp [hk] at hy; subst hy
          rw [h1]
          by_cases hns : n = s
          · subst hns; simp [hsb, Net.trIdx, hk]
          · simp [hns]
        | product cs =>
          simp [hk] at hy; subst hy
          simp only [h1]
          by_cases hns : n = s
          · subst hns; simp [hsb, Net.trIdx, hk]
          · simp [hns]
        | sum cs w =>
          simp only [hk, Option.bind_eq_some_iff, Option.map_eq_some_iff] at hy
          obtain ⟨i, hi, c, hc, hy⟩ := hy
          have hcand : c ∈ N.trCand get pick s := by simp [Net.trCand, hk, hi, hc]
          rw [if_neg] at hy
          · subst hy
            simp only [Function.update_apply]
            by_cases hns : n = s
            · subst hns; simp [hi]
            · simp [hns, h1]
          · rw [h2]
            rintro (rfl | ⟨u, hu, hcu⟩)
            · exact no_cycle hac (trCand_sub hcand) (trReach_sub hsr)
            · have := htree u s c (hre u (by simp [hu])) hsr hcu hcand
              subst this; exact hsb hu
      · intro v
        unfold Net.trUpd at hy
        cases hk : N.kind s with
        | leaf l' =>
          simp [hk] at hy; subst hy
          rw [h2]
          simp [Net.trCand, hk, or_and_right, exists_or]
        | product cs =>
          simp [hk] at hy; subst hy
          simp only [Finset.mem_union, h2, List.mem_toFinset, List.mem_append, List.mem_singleton, or_and_right, exists_or, exists_eq_left, Net.trCand, hk]
          exact or_assoc
        | sum cs w =>
          simp only [hk, Option.bind_eq_some_iff, Option.map_eq_some_iff] at hy
          obtain ⟨i, hi, c, hc, hy⟩ := hy
          have hcs : ∀ v, v ∈ N.trCand get pick s ↔ v = c := by intro v; simp [Net.trCand, hk, hi, hc, eq_comm]
          simp only [List.mem_append, List.mem_singleton, or_and_right, exists_or, exists_eq_left, hcs]
          by_cases hcx : c ∈ x.2
          · rw [if_pos hcx] at hy; subst hy
            constructor
            · intro hv; rcases (h2 v).1 hv with h | h
              · exact Or.inl h
              · exact Or.inr (Or.inl h)
            · rintro (h | h | rfl)
              · exact (h2 v).2 (Or.inl h)
              · exact (h2 v).2 (Or.inr h)
              · exact hcx
          · rw [if_neg hcx] at hy; subst hy
            simp only [Finset.mem_insert, h2]
            rw [or_comm, or_assoc]
      · intro n hn hts
        rcases List.mem_append.1 hn with hn | hn
        · exact h3 n hn hts
        · simp at hn; subst hn
          unfold Net.type at hts
          unfold Net.trUpd at hy
          cases hk : N.kind n with
          | leaf l' => simp [hk] at hts
          | product cs => simp [hk] at hts
          | sum cs w =>
            simp only [hk, Option.bind_eq_some_iff] at hy
            obtain ⟨i, hi, _⟩ := hy
            rw [hi]; simp
  obtain ⟨h1, h2⟩ := key _ [] _ (by simpa using hls.1) (by simpa using fun n hn => (hls.2 n).1 hn) (by simp) (by simp) (by simp) h
  simp only [List.nil_append] at h1 h2
  refine ⟨fun n hn => ⟨by rw [h1, if_pos ((hls.2 n).2 hn)], h2 n ((hls.2 n).2 hn)⟩, fun n hn => by rw [h1, if_neg (fun h => hn ((hls.2 n).1 h))]⟩

/-! ### Counting -/

/-- The nodes `DeriveHard` goes on with. -/
def Net.hdCand (N : Net ι F) (T : ι → Option Nat) (n : ι) : List ι :=
  match N.kind n with
  | .product _ => N.innerCh n
  | .sum ch _ => ((T n).bind (ch[·]?)).toList
  | .leaf _ => []

/-- The update of the table at a node. -/
def Net.hdUpd (N : Net ι F) (h : Option Nat) (T : ι → Option Nat) (st : Storer ι F) (s : ι) : Option (Storer ι F) :=
  match N.kind s with
  | .sum ch _ =>
    match T s with
    | none => some st
    | some mi => (st.tableStore h s mi (add (((st.deref h).entry s mi).getD (ofInt 0)) (ofInt 1))).bind fun st' => (ch[mi]?).map fun _ => st'
  | _ => some st

theorem hardStep_eq (h : Option Nat) (T : ι → Option Nat) (st : Storer ι F) (s : ι) :
    N.deriveHardStep h T st s = (N.hdUpd h T st s).map fun y => (y, some (N.hdCand T s)) := by
  unfold Net.deriveHardStep Net.hdUpd Net.hdCand
  cases hk : N.kind s with
  | leaf l => rfl
  | product cs => rfl
  | sum cs w =>
    cases hT : T s with
    | none => simp
    | some mi =>
      simp only
      cases hs : st.tableStore h s mi (add (((st.deref h).entry s mi).getD (ofInt 0)) (ofInt 1)) with
      | none => rfl
      | some st' =>
        simp only [Option.bind_some]
        cases hi : cs[mi]? with
        | none => rfl
        | some c => simp

theorem hardFold {a : Nat} {T : ι → Option Nat} : ∀ (l : List ι) (st : Storer ι F), l.Nodup →
    (∀ n ∈ l, ∀ cs w i, N.kind n = .sum cs w → T n = some i → i < cs.length) →
    ∃ st', l.foldlM (N.hdUpd (some a) T) st = some st' ∧ OnlyAt a st st' ∧
      ∀ (n : ι) (i : Int), (st'.heap a).entry n i = if n ∈ l ∧ N.type n = .sum ∧ (T n).map Int.ofNat = some i then some (add (((st.heap a).entry n i).getD (ofInt 0)) (ofInt 1))
        else (st.heap a).entry n i := by
  intro l
  induction l with
  | nil => intro st _ _; exact ⟨st, rfl, OnlyAt.refl _ _, by simp⟩
  | cons s l ih =>
    intro st hnd hT
    obtain ⟨hs, hnd⟩ := List.nodup_cons.1 hnd
    have hstep : ∃ st1, N.hdUpd (some a) T st s = some st1 ∧ OnlyAt a st st1 ∧ ∀ (n : ι) (i : Int), (st1.heap a).entry n i =
        if n = s ∧ N.type n = .sum ∧ (T n).map Int.ofNat = some i then some (add (((st.heap a).entry n i).getD (ofInt 0)) (ofInt 1)) else (st.heap a).entry n i := by
      have hnon : N.type s ≠ .sum → ∃ st1, some st = some st1 ∧ OnlyAt a st st1 ∧ ∀ (n : ι) (i : Int), (st1.heap a).entry n i =
        if n = s ∧ N.type n = .sum ∧ (T n).map Int.ofNat = some i then some (add (((st.heap a).entry n i).getD (ofInt 0)) (ofInt 1)) else (st.heap a).entry n i := by
        intro hts
        refine ⟨st, rfl, OnlyAt.refl _ _, fun n i => ?_⟩
        rw [if_neg]; rintro ⟨rfl, h, _⟩; exact hts h
      unfold Net.hdUpd
      cases hk : N.kind s with
      | leaf l' => exact hnon (by simp [Net.type, hk])
      | product cs => exact hnon (by simp [Net.type, hk])
      | sum cs w =>
        cases hTs : T s with
        | none =>
          refine ⟨st, rfl, OnlyAt.refl _ _, fun n i => ?_⟩
          rw [if_neg]; rintro ⟨rfl, _, h⟩; simp [hTs] at h
        | some mi =>
          have hlt := hT s (by simp) cs w mi hk hTs
          obtain ⟨st1, h1⟩ : ∃ st1, st.tableStore (some a) s mi (add (((st.deref (some a)).entry s mi).getD (ofInt 0)) (ofInt 1)) = some st1 := ⟨_, rfl⟩
          refine ⟨st1, by simp [h1, List.getElem?_eq_getElem hlt], OnlyAt.store h1, fun n i => ?_⟩
          rw [store_heap h1]
          by_cases hn : n = s
          · subst hn
            simp only [true_and, Net.type, hk, hTs, Option.map_some, Option.some.injEq]
            by_cases hi : i = mi
            · subst hi; simp [Storer.deref]
            · rw [if_neg hi, if_neg (fun h => hi h.symm)]
          · simp [hn]
    obtain ⟨st1, h1, h2, h3⟩ := hstep
    obtain ⟨st', g1, g2, g3⟩ := ih st1 hnd (fun n hn => hT n (by simp [hn]))
    refine ⟨st', by rw [List.foldlM_cons, h1]; exact g1, h2.trans g2, fun n i => ?_⟩
    rw [g3, h3]
    by_cases hn : n = s
    · subst hn; simp [hs]
    · simp [hn]

/-- The search of `DeriveHard` comes to the same sum nodes as the trace. -/
theorem hdReach_iff {T : ι → Option Nat} (hT : ∀ n, Reach (N.trCand get pick) S n → T n = N.trIdx get pick n) {n : ι} (hn : N.type n = .sum) :
    Reach (N.hdCand T) S n ↔ Reach (N.trCand get pick) S n := by
  have hsub : ∀ m, Reach (N.trCand get pick) S m → ∀ c ∈ N.hdCand T m, c ∈ N.trCand get pick m := by
    intro m hm c hc
    unfold Net.hdCand at hc; unfold Net.trCand
    cases hk : N.kind m with
    | leaf l => simp [hk] at hc
    | product cs =>
      simp only [hk, Net.innerCh, List.mem_filter] at hc
      simpa [Net.ch, hk] using hc.1
    | sum cs w => simp only [hk, hT m hm] at hc; exact hc
  have hsup : ∀ m, Reach (N.trCand get pick) S m → ∀ c ∈ N.trCand get pick m, N.type c ≠ .leaf → c ∈ N.hdCand T m := by
    intro m hm c hc ht
    unfold Net.trCand at hc; unfold Net.hdCand
    cases hk : N.kind m with
    | leaf l => simp [hk] at hc
    | product cs =>
      simp only [hk] at hc
      simp [Net.innerCh, Net.ch, hk, hc, ht]
    | sum cs w => simp only [hk] at hc; simpa [hT m hm] using hc
  constructor
  · intro h
    clear hn
    induction h with
    | refl => exact Relation.ReflTransGen.refl
    | tail _ hc ih => exact Relation.ReflTransGen.tail ih (hsub _ ih _ hc)
  · intro h
    have : N.type n ≠ .leaf := by rw [hn]; simp
    clear hn
    induction h with
    | refl => exact Relation.ReflTransGen.refl
    | tail hr hc ih =>
      rename_i u c
      have hu : N.type u ≠ .leaf := by
        intro h
        have hc : c ∈ N.trCand get pick u := hc
        unfold Net.trCand at hc; unfold Net.type at h
        cases hk : N.kind u with
        | leaf l => simp [hk] at hc
        | product cs => simp [hk] at h
        | sum cs w => simp [hk] at h
      exact Relation.ReflTransGen.tail (ih hu) (hsup u hr c hc this)

/-- Reachability in the trace graph in terms of the specification. -/
theorem onTrace_iff (hsome : ∀ n, Reach (N.trCand get pick) S n → N.type n = .sum → N.trIdx get pick n ≠ none) (n : ι) :
    OnTrace N (fun m => (N.trIdx get pick m).getD 0) S n ↔ Reach (N.trCand get pick) S n := by
  constructor
  · intro h
    induction h with
    | root => exact Relation.ReflTransGen.refl
    | product _ hk hc ih => exact Relation.ReflTransGen.tail ih (by simpa [Net.trCand, hk] using hc)
    | sum _ hk hc ih =>
      rename_i m c cs w _
      obtain ⟨i, hi⟩ := Option.ne_none_iff_exists'.1 (hsome m ih (by simp [Net.type, hk]))
      simp only [hi, Option.getD_some] at hc
      exact Relation.ReflTransGen.tail ih (by simp [Net.trCand, hk, hi, hc])
  · intro h
    induction h with
    | refl => exact .root
    | tail _ hc ih =>
      rename_i u c _
      have hc : c ∈ N.trCand get pick u := hc
      unfold Net.trCand at hc
      cases hk : N.kind u with
      | leaf l => simp [hk] at hc
      | product cs => simp only [hk] at hc; exact .product ih hk hc
      | sum cs w =>
        simp only [hk, Option.mem_toList, Option.bind_eq_some_iff] at hc
        obtain ⟨i, hi, hc⟩ := hc
        exact .sum ih hk (by simpa [hi] using hc)

end
end Gospn
