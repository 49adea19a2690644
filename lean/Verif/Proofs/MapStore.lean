import Verif.Proofs.MapArg
set_option linter.unusedSectionVars false
/-
The state returned by `StoreMAP`, whatever the tie breaking.
-/
namespace Gospn
open Spec GoFloat

variable {ι : Type} [Fintype ι]

theorem XR.eq_iff {x y : XR} (hx : IsLogProb x) (hy : IsLogProb y) : XR.eq x y = true ↔ x = y := by
  rcases IsLogProb.cases hx with rfl | ⟨a, rfl⟩ <;> rcases IsLogProb.cases hy with rfl | ⟨b, rfl⟩ <;> simp [XR.eq]

theorem tiedChildren_spec {α : Type} (l : List (α × XR)) : ∀ (mv : List α) (m : XR), IsLogProb m → (∀ p ∈ l, IsLogProb p.2) →
    (tiedChildren l (mv, m)).2 = (l.map Prod.snd).foldl (fun m u => if XR.lt m u then u else m) m ∧
    (∀ c ∈ (tiedChildren l (mv, m)).1, (c ∈ mv ∧ (tiedChildren l (mv, m)).2 = m) ∨ (c, (tiedChildren l (mv, m)).2) ∈ l) ∧
    ((mv = [] → m = .ninf) → (mv ≠ [] ∨ l ≠ []) → (tiedChildren l (mv, m)).1 ≠ []) := by
  induction l with
  | nil =>
    intro mv m _ _
    refine ⟨rfl, fun c hc => Or.inl ⟨hc, rfl⟩, fun _ h => ?_⟩
    simpa [tiedChildren] using h
  | cons p l ih =>
    intro mv m hm hl
    obtain ⟨c, u⟩ := p
    have hu : IsLogProb u := hl (c, u) (by simp)
    have hl' : ∀ p ∈ l, IsLogProb p.2 := fun p hp => hl p (by simp [hp])
    simp only [tiedChildren, List.map_cons, List.foldl_cons]
    by_cases h1 : XR.lt m u = true
    · obtain ⟨e1, e2, e3⟩ := ih [c] u hu hl'
      simp only [XR.g_lt, h1, if_true]
      refine ⟨e1, ?_, fun _ _ => e3 (by simp) (by simp)⟩
      intro d hd
      rcases e2 d hd with ⟨h2, h3⟩ | h2
      · simp at h2; subst h2; right; rw [h3]; simp
      · right; simp [h2]
    · simp only [XR.g_lt, h1, if_false, Bool.false_eq_true]
      by_cases h2 : u = m
      · subst h2
        have : GoFloat.eq u u = true := (XR.eq_iff hu hu).2 rfl
        simp only [this, if_true]
        obtain ⟨e1, e2, e3⟩ := ih (mv ++ [c]) u hu hl'
        refine ⟨e1, ?_, fun _ _ => e3 (by simp) (by simp)⟩
        intro d hd
        rcases e2 d hd with ⟨h2, h3⟩ | h2
        · rcases List.mem_append.1 h2 with h2 | h2
          · exact Or.inl ⟨h2, h3⟩
          · simp at h2; subst h2; right; rw [h3]; simp
        · right; simp [h2]
      · have : GoFloat.eq u m = false := by
          rw [← Bool.not_eq_true]; intro h; exact h2 ((XR.eq_iff hu hm).1 h)
        simp only [this, if_false, Bool.false_eq_true]
        obtain ⟨e1, e2, e3⟩ := ih mv m hm hl'
        refine ⟨e1, ?_, fun h _ => e3 h ?_⟩
        · intro d hd
          rcases e2 d hd with h2 | h2
          · exact Or.inl h2
          · right; simp [h2]
        · left; intro h3
          have hm' := h h3
          subst hm'
          rcases IsLogProb.cases hu with rfl | ⟨b, rfl⟩
          · exact h2 rfl
          · simp [XR.lt] at h1

section
variable {F : Type} [GoFloat F]

/-- The child a sum node of the second part of `StoreMAP` goes on with. -/
def Net.mapChoice (N : Net ι F) (get : ι → F) (pick : ι → Nat → Nat) (n : ι) : Option ι :=
  match N.kind n with
  | .sum cs w =>
    (weightedMax (cs.map get) w).bind fun us =>
      let mv := (tiedChildren (cs.zip us) ([], ninf)).1
      if mv.length = 0 then none else mv[pick n mv.length % mv.length]?
  | _ => none

def Net.mapCand (N : Net ι F) (get : ι → F) (pick : ι → Nat → Nat) (n : ι) : List ι :=
  match N.kind n with
  | .sum _ _ => (N.mapChoice get pick n).toList
  | .product cs => cs
  | .leaf _ => []

def Net.mapUpd (N : Net ι F) (I : VarSet) (get : ι → F) (pick : ι → Nat → Nat) (M : VarSet) (n : ι) : Option VarSet :=
  match N.kind n with
  | .sum _ _ => (N.mapChoice get pick n).map fun _ => M
  | .product _ => some M
  | .leaf l => (l.argMax I).map fun r => M.override r.1

theorem Net.mapStateStep_eq (N : Net ι F) (I : VarSet) (get : ι → F) (pick : ι → Nat → Nat) (M : VarSet) (n : ι) :
    N.mapStateStep I get pick M n = (N.mapUpd I get pick M n).map fun M' => (M', some (N.mapCand get pick n)) := by
  unfold Net.mapStateStep Net.mapUpd Net.mapCand
  cases hk : N.kind n with
  | leaf l => simp only [Option.map_map]; rfl
  | product cs => rfl
  | sum cs w =>
    simp only [Net.mapChoice, hk, Option.map_map]
    cases hw : weightedMax (cs.map get) w with
    | none => rfl
    | some us =>
      simp only [Option.bind_some]
      split
      · rfl
      · cases hmv : (tiedChildren (cs.zip us) ([], ninf)).1[pick n (tiedChildren (cs.zip us) ([], ninf)).1.length % (tiedChildren (cs.zip us) ([], ninf)).1.length]? <;> simp

variable {N : Net ι F} {S : ι} {I : VarSet} {get : ι → F} {pick : ι → Nat → Nat}

theorem Net.mapCand_sub (N : Net ι F) (get : ι → F) (pick : ι → Nat → Nat) (h : ∀ n c cs w, N.kind n = .sum cs w → N.mapChoice get pick n = some c → c ∈ cs)
    {n c : ι} (hc : c ∈ N.mapCand get pick n) : c ∈ N.ch n := by
  unfold Net.mapCand at hc; unfold Net.ch
  cases hk : N.kind n with
  | leaf l => simp [hk] at hc
  | product cs => simpa [hk] using hc
  | sum cs w =>
    simp only [hk, Option.mem_toList] at hc
    exact h n c cs w hk hc

theorem Net.mapChoice_mem {n c : ι} {cs : List ι} {w : List F} (hk : N.kind n = .sum cs w) (h : N.mapChoice get pick n = some c) : c ∈ cs := by
  simp only [Net.mapChoice, hk, Option.bind_eq_some_iff] at h
  obtain ⟨us, _, h2⟩ := h
  split at h2
  · cases h2
  · have key : ∀ (l : List (ι × F)) (mv : List ι) (m : F), ∀ d ∈ (tiedChildren l (mv, m)).1, d ∈ mv ∨ d ∈ l.map Prod.fst := by
      intro l
      induction l with
      | nil => intro mv m d hd; exact Or.inl hd
      | cons p l ih =>
        intro mv m d hd
        simp only [tiedChildren] at hd
        split at hd
        · rcases ih _ _ d hd with h | h
          · simp at h; subst h; simp
          · simp [h]
        · split at hd
          · rcases ih _ _ d hd with h | h
            · rcases List.mem_append.1 h with h | h
              · exact Or.inl h
              · simp at h; subst h; simp
            · simp only [List.map_cons, List.mem_cons]; tauto
          · rcases ih _ _ d hd with h | h
            · exact Or.inl h
            · simp only [List.map_cons, List.mem_cons]; tauto
    rcases key (cs.zip us) [] ninf c (List.mem_of_getElem? h2) with h | h
    · cases h
    · obtain ⟨p, hp, rfl⟩ := List.mem_map.1 h
      exact (List.of_mem_zip hp).1

theorem Net.mapReach_sub {a b : ι} (h : Reach (N.mapCand get pick) a b) : Reach N.ch a b := by
  induction h with
  | refl => exact Relation.ReflTransGen.refl
  | tail _ hc ih => exact Relation.ReflTransGen.tail ih (Net.mapCand_sub N get pick (fun n c cs w hk h => Net.mapChoice_mem hk h) hc)

/-- Two leaves of the same variable that the search comes to are the same leaf. -/
theorem Net.leaf_unique (hac : Acyclic N.ch) (hdec : IsDecomposable N S) : ∀ n, Reach N.ch S n → ∀ a b la lb, Reach (N.mapCand get pick) n a → Reach (N.mapCand get pick) n b →
    N.kind a = .leaf la → N.kind b = .leaf lb → leafVar la = leafVar lb → a = b := by
  obtain ⟨rank, hr⟩ := id hac
  intro n
  induction hn : rank n using Nat.strong_induction_on generalizing n with
  | _ k ih =>
    intro hreach a b la lb hra hrb hka hkb hv
    rcases Relation.ReflTransGen.cases_head hra with rfl | ⟨c, hc, hra'⟩
    · rcases Relation.ReflTransGen.cases_head hrb with rfl | ⟨d, hd, _⟩
      · rfl
      · have : d ∈ N.mapCand get pick n := hd
        simp [Net.mapCand, hka] at this
    · rcases Relation.ReflTransGen.cases_head hrb with rfl | ⟨d, hd, hrb'⟩
      · have : c ∈ N.mapCand get pick n := hc
        simp [Net.mapCand, hkb] at this
      · have hc : c ∈ N.mapCand get pick n := hc
        have hd : d ∈ N.mapCand get pick n := hd
        have hcn : c ∈ N.ch n := Net.mapCand_sub N get pick (fun n c cs w hk h => Net.mapChoice_mem hk h) hc
        have hcd : c = d := by
          cases hk : N.kind n with
          | leaf l => simp [Net.mapCand, hk] at hc
          | sum cs w =>
            simp only [Net.mapCand, hk, Option.mem_toList] at hc hd
            rw [hc] at hd; exact Option.some.inj hd
          | product cs =>
            simp only [Net.mapCand, hk] at hc hd
            by_contra hne
            have hp := hdec n hreach cs hk
            have hsc : InScope N c (leafVar la) := ⟨a, la, Net.mapReach_sub hra', hka, rfl⟩
            have hsd : InScope N d (leafVar la) := ⟨b, lb, Net.mapReach_sub hrb', hkb, hv.symm⟩
            have hsym : cs.Pairwise (fun c d => ¬ (InScope N c (leafVar la) ∧ InScope N d (leafVar la))) := hp.imp (fun h => h _)
            have q1 : cs.Pairwise (fun c d => c ≠ d → ¬ (InScope N c (leafVar la) ∧ InScope N d (leafVar la))) := by
              refine hsym.imp ?_; intro _ _ h _; exact h
            have q2 : cs.Pairwise (fun d c => c ≠ d → ¬ (InScope N c (leafVar la) ∧ InScope N d (leafVar la))) := hsym.imp (fun h _ h' => h ⟨h'.2, h'.1⟩)
            exact (List.Pairwise.forall_of_forall_of_flip (by intro x _ hx; exact absurd rfl hx) q1 q2) hc hd hne ⟨hsc, hsd⟩
        subst hcd
        exact ih (rank c) (by rw [← hn]; exact hr n c hcn) c rfl (Relation.ReflTransGen.tail hreach hcn) a b la lb hra' hrb' hka hkb hv

/-- The fold of the second part of `StoreMAP`. -/
theorem mapUpd_fold (x : ι → Int) (l : List ι) : ∀ M0 : VarSet,
    (∀ n ∈ l, ∀ lf, N.kind n = .leaf lf → ∃ b, lf.argMax I = some (VarSet.single (leafVar lf) (x n), b)) →
    (∀ n ∈ l, ∀ cs w, N.kind n = .sum cs w → ∃ c, N.mapChoice get pick n = some c) →
    (∀ m ∈ l, ∀ n ∈ l, ∀ lm ln, N.kind m = .leaf lm → N.kind n = .leaf ln → leafVar lm = leafVar ln → m = n) →
    ∃ M, l.foldlM (N.mapUpd I get pick) M0 = some M ∧ (∀ n ∈ l, ∀ lf, N.kind n = .leaf lf → M (leafVar lf) = some (x n)) ∧
      ∀ v, (∀ n ∈ l, ∀ lf, N.kind n = .leaf lf → leafVar lf ≠ v) → M v = M0 v := by
  induction l with
  | nil => intro M0 _ _ _; exact ⟨M0, rfl, by simp, fun _ _ => rfl⟩
  | cons n l ih =>
    intro M0 h1 h2 h3
    have hih := fun M => ih M (fun m hm => h1 m (by simp [hm])) (fun m hm => h2 m (by simp [hm])) (fun m hm k hk => h3 m (by simp [hm]) k (by simp [hk]))
    cases hk : N.kind n with
    | product cs =>
      obtain ⟨M, e1, e2, e3⟩ := hih M0
      refine ⟨M, ?_, ?_, ?_⟩
      · rw [List.foldlM_cons]; simp only [Net.mapUpd, hk]; exact e1
      · intro m hm lf hlf
        rcases List.mem_cons.1 hm with rfl | hm
        · rw [hk] at hlf; cases hlf
        · exact e2 m hm lf hlf
      · intro v hv; exact e3 v (fun m hm => hv m (by simp [hm]))
    | sum cs w =>
      obtain ⟨M, e1, e2, e3⟩ := hih M0
      obtain ⟨c, hc⟩ := h2 n (by simp) cs w hk
      refine ⟨M, ?_, ?_, ?_⟩
      · rw [List.foldlM_cons]; simp only [Net.mapUpd, hk, hc, Option.map_some]; exact e1
      · intro m hm lf hlf
        rcases List.mem_cons.1 hm with rfl | hm
        · rw [hk] at hlf; cases hlf
        · exact e2 m hm lf hlf
      · intro v hv; exact e3 v (fun m hm => hv m (by simp [hm]))
    | leaf lf =>
      obtain ⟨b, hb⟩ := h1 n (by simp) lf hk
      obtain ⟨M, e1, e2, e3⟩ := hih (M0.override (VarSet.single (leafVar lf) (x n)))
      refine ⟨M, ?_, ?_, ?_⟩
      · rw [List.foldlM_cons]; simp only [Net.mapUpd, hk, hb, Option.map_some]; exact e1
      · intro m hm lm hlm
        rcases List.mem_cons.1 hm with rfl | hm
        · rw [hk] at hlm; cases hlm
          by_cases hml : m ∈ l
          · exact e2 m hml lf hk
          · rw [e3 (leafVar lf)]
            · simp [VarSet.override, VarSet.single]
            · intro k hk' lk hlk hv
              have := h3 m (by simp) k (by simp [hk']) lf lk hk hlk hv.symm
              subst this; exact hml hk'
        · exact e2 m hm lm hlm
      · intro v hv
        rw [e3 v (fun m hm => hv m (by simp [hm]))]
        have := hv n (by simp) lf hk
        simp [VarSet.override, VarSet.single, Ne.symm this]

end

section
variable {N : Net ι XR} {S : ι} {dom : Int → Set Int} {I : VarSet} {get : ι → XR} {pick : ι → Nat → Nat}

/-- A sum node of positive MAP probability chooses a child that attains it. -/
theorem MapNet.choice_spec (h : MapNet N S dom I) (hget : ∀ n, Reach N.ch S n → N.max I n = some (get n)) {n : ι} (hn : Reach N.ch S n)
    {cs : List ι} {r : List ℝ} (hk : N.kind n = .sum cs (r.map XR.fin)) {a : ℝ} (ha : N.max I n = some (.fin a)) :
    ∃ (c : ι) (i : Nat) (p : ℝ), N.mapChoice get pick n = some c ∧ cs[i]? = some c ∧ r[i]? = some p ∧ p * N.pmax I c = unlog (.fin a) ∧ ∃ b, N.max I c = some (.fin b) := by
  have hcs : N.ch n = cs := by simp [Net.ch, hk]
  obtain ⟨g, us, h1, h2, h3, h4, h5, h6, h7, h8⟩ := Net.max_sum h.acyclic h.weights h.leavesMax hn hk
  have hgg : cs.map get = cs.map g := List.map_congr_left (fun c hc => by
    have e1 := hget c (Relation.ReflTransGen.tail hn (hcs ▸ hc : c ∈ N.ch n))
    rw [(h1 c hc).1] at e1; exact (Option.some.inj e1).symm)
  have hm : maxCompute us = .fin a := by rw [ha] at h6; exact (Option.some.inj h6).symm
  have hzip : (cs.zip us).map Prod.snd = us := by
    rw [List.map_snd_zip]; omega
  obtain ⟨t1, t2, t3⟩ := tiedChildren_spec (cs.zip us) [] .ninf trivial (fun p hp => h4 p.2 (by rw [← hzip]; exact List.mem_map_of_mem hp))
  rw [hzip] at t1
  have t1' : (tiedChildren (cs.zip us) ([], .ninf)).2 = .fin a := t1.trans hm
  have hne := t3 (fun _ => rfl) (Or.inr (by
    intro h0
    have h00 : us = [] := by rw [← hzip, h0]; rfl
    subst h00; cases hm))
  set mv := (tiedChildren (cs.zip us) ([], .ninf)).1 with hmv
  have hlen : mv.length ≠ 0 := fun h0 => hne (List.length_eq_zero_iff.1 h0)
  have hlt : pick n mv.length % mv.length < mv.length := Nat.mod_lt _ (Nat.pos_of_ne_zero hlen)
  have hmem : mv[pick n mv.length % mv.length] ∈ mv := List.getElem_mem hlt
  have hc := (t2 _ hmem).resolve_left (by simp)
  rw [t1'] at hc
  obtain ⟨i, hi, hu⟩ := mem_zip_index hc
  have hri : ∃ p, r[i]? = some p := by
    have := (List.getElem?_eq_some_iff.1 hi).1
    exact ⟨r[i]'(by omega), List.getElem?_eq_getElem _⟩
  obtain ⟨p, hp⟩ := hri
  have hpc : p * N.pmax I mv[pick n mv.length % mv.length] = unlog (.fin a) := by
    have := congrArg (fun l => l[i]?) h5
    simp only [List.getElem?_map, hu, List.getElem?_zipWith, hp, hi, Option.map_some] at this
    exact (Option.some.inj this).symm
  obtain ⟨e1, e2, e3⟩ := h1 _ (List.mem_of_getElem? hi)
  obtain ⟨b, hb⟩ := isLogProb_fin_of e2 (by rw [e3]; intro h0; rw [h0, mul_zero] at hpc; exact unlog_fin_ne a hpc.symm)
  refine ⟨_, i, p, ?_, hi, hp, hpc, b, by rw [e1, hb]⟩
  simp only [Net.mapChoice, hk, hgg, h2, Option.bind_some]
  show (if mv.length = 0 then none else mv[pick n mv.length % mv.length]?) = _
  rw [if_neg hlen, List.getElem?_eq_getElem hlt]

/-- Every node the second part of `StoreMAP` comes to has positive MAP probability. -/
theorem MapNet.reach_fin (h : MapNet N S dom I) (hget : ∀ n, Reach N.ch S n → N.max I n = some (get n)) {a : ℝ} (ha : N.max I S = some (.fin a)) :
    ∀ n, Reach (N.mapCand get pick) S n → ∃ b, N.max I n = some (.fin b) := by
  intro n hn
  induction hn with
  | refl => exact ⟨a, ha⟩
  | tail hr hc ih =>
    rename_i u c
    obtain ⟨b, hb⟩ := ih
    have hru : Reach N.ch S u := Net.mapReach_sub hr
    have hc : c ∈ N.mapCand get pick u := hc
    have hcu : c ∈ N.ch u := Net.mapCand_sub N get pick (fun n c cs w hk h => Net.mapChoice_mem hk h) hc
    unfold Net.mapCand at hc
    cases hk : N.kind u with
    | leaf l => simp [hk] at hc
    | sum cs w =>
      obtain ⟨_, r, rfl, _, _⟩ := h.weights u hru cs w hk
      obtain ⟨d, i, p, h1, h2, h3, h4, h5⟩ := h.choice_spec (pick := pick) hget hru hk hb
      simp only [hk, Option.mem_toList, h1] at hc
      simp at hc; subst hc; exact h5
    | product cs =>
      have hcs : N.ch u = cs := by simp [Net.ch, hk]
      simp only [hk] at hc
      have hprod := Net.max_product h.acyclic h.weights h.leavesMax hru hk
      rw [Net.pmax_some hb] at hprod
      obtain ⟨x, hx, hxl⟩ := Net.max_ok h.acyclic h.weights h.leavesMax c (Relation.ReflTransGen.tail hru hcu)
      have hne : N.pmax I c ≠ 0 := by
        intro h0
        have : (cs.map (N.pmax I)).prod = 0 := List.prod_eq_zero (by rw [← h0]; exact List.mem_map_of_mem hc)
        rw [this] at hprod; exact unlog_fin_ne b hprod
      rw [Net.pmax_some hx] at hne
      obtain ⟨b', rfl⟩ := isLogProb_fin_of hxl hne
      exact ⟨b', hx⟩

/-- Every variable of the scope has a leaf the search comes to. -/
theorem MapNet.leaf_exists (h : MapNet N S dom I) (hget : ∀ n, Reach N.ch S n → N.max I n = some (get n)) {a : ℝ} (ha : N.max I S = some (.fin a)) (v : Int) :
    ∀ n, Reach (N.mapCand get pick) S n → InScope N n v → ∃ m l, Reach (N.mapCand get pick) n m ∧ N.kind m = .leaf l ∧ leafVar l = v := by
  obtain ⟨rank, hr⟩ := id h.acyclic
  intro n
  induction hn : rank n using Nat.strong_induction_on generalizing n with
  | _ k ih =>
    intro hreach hs
    rcases InScope.inv hs with ⟨l, hl, hv⟩ | ⟨d, hd, hsd⟩
    · exact ⟨n, l, Relation.ReflTransGen.refl, hl, hv⟩
    · have : ∃ c ∈ N.mapCand get pick n, InScope N c v := by
        cases hk : N.kind n with
        | leaf l => simp [Net.ch, hk] at hd
        | product cs => simp only [Net.ch, hk] at hd; exact ⟨d, by simp [Net.mapCand, hk, hd], hsd⟩
        | sum cs w =>
          simp only [Net.ch, hk] at hd
          have hru : Reach N.ch S n := Net.mapReach_sub hreach
          obtain ⟨_, r, rfl, _, _⟩ := h.weights n hru cs w hk
          obtain ⟨b, hb⟩ := h.reach_fin hget ha n hreach
          obtain ⟨c, i, p, h1, h2, _⟩ := h.choice_spec (pick := pick) hget hru hk hb
          exact ⟨c, by simp [Net.mapCand, hk, h1], h.complete n hru cs _ hk d hd c (List.mem_of_getElem? h2) v hsd⟩
      obtain ⟨c, hc, hsc⟩ := this
      have hcn : c ∈ N.ch n := Net.mapCand_sub N get pick (fun n c cs w hk h => Net.mapChoice_mem hk h) hc
      obtain ⟨m, l, h1, h2, h3⟩ := ih (rank c) (by rw [← hn]; exact hr n c hcn) c rfl (Relation.ReflTransGen.tail hreach hc) hsc
      exact ⟨m, l, Relation.ReflTransGen.head hc h1, h2, h3⟩

variable [DecidableEq ι]

/-- The state of `StoreMAP`. -/
theorem MapNet.storeMAP_state (h : MapNet N S dom I) (hget : ∀ n, Reach N.ch S n → N.max I n = some (get n)) {a : ℝ} (ha : N.max I S = some (.fin a)) :
    ∃ M, work (N.mapStateStep I get pick) false S (fun _ => none) = some M ∧ (∀ v, (∃ x, M v = some x) ↔ InScope N S v) ∧
      (∀ v x, InScope N S v → I v = some x → M v = some x) ∧ (∀ v x, M v = some x → x ∈ dom v) ∧ N.max M S = some (.fin a) := by
  have hol := workOrder_lists (N.mapCand get pick) false S
  have hfin := h.reach_fin (pick := pick) hget ha
  have hml : ∀ n l K, N.kind n = .leaf l → N.max K n = l.max K := fun n l K hk => by rw [Net.max_unfold h.acyclic]; simp [Net.maxStep, hk]
  have hleaf : ∀ n, Reach (N.mapCand get pick) S n → ∃ x, ∀ l, N.kind n = .leaf l → ∃ b, N.max I n = some (.fin b) ∧
      l.argMax I = some (VarSet.single (leafVar l) x, .fin b) ∧ (∀ y, I (leafVar l) = some y → y = x) ∧ x ∈ dom (leafVar l) ∧
      ∀ J : VarSet, J (leafVar l) = some x → l.max J = some (.fin b) := by
    intro n hn
    have hr := Net.mapReach_sub hn
    cases hk : N.kind n with
    | leaf l =>
      obtain ⟨b, hb⟩ := hfin n hn
      obtain ⟨x, h1, h2, h3, h4⟩ := leaf_argMax_spec (h.leaves n l hr hk) (h.modes n l hr hk) (h.evidence _ ⟨n, l, hr, hk, rfl⟩)
        (a := b) (by rw [← hml n l I hk]; exact hb)
      exact ⟨x, fun l' hl' => by cases hl'; exact ⟨b, hb, h1, h2, h3, h4⟩⟩
    | _ => exact ⟨0, fun l' hl' => by cases hl'⟩
  choose! x hx using hleaf
  obtain ⟨M, e1, e2, e3⟩ := mapUpd_fold (N := N) (I := I) (get := get) (pick := pick) x (workOrder (N.mapCand get pick) false S) (fun _ => none)
    (fun n hn lf hk => by
      obtain ⟨b, _, h2, _⟩ := hx n ((hol.2 n).1 hn) lf hk
      exact ⟨_, h2⟩)
    (fun n hn cs w hk => by
      have hr := (hol.2 n).1 hn
      obtain ⟨_, r, rfl, _, _⟩ := h.weights n (Net.mapReach_sub hr) cs w hk
      obtain ⟨b, hb⟩ := hfin n hr
      obtain ⟨c, _, _, h1, _⟩ := h.choice_spec (pick := pick) hget (Net.mapReach_sub hr) hk hb
      exact ⟨c, h1⟩)
    (fun m hm n hn lm ln h1 h2 h3 => Net.leaf_unique h.acyclic h.decomposable S Relation.ReflTransGen.refl m n lm ln ((hol.2 m).1 hm) ((hol.2 n).1 hn) h1 h2 h3)
  have hsome : ∀ v y, M v = some y → ∃ n l, Reach (N.mapCand get pick) S n ∧ N.kind n = .leaf l ∧ leafVar l = v ∧ y = x n := by
    intro v y hy
    by_contra hcon
    have : M v = none := e3 v (fun n hn lf hlf hv => hcon ⟨n, lf, (hol.2 n).1 hn, hlf, hv, by
      have := e2 n hn lf hlf; rw [hv, hy] at this; exact Option.some.inj this⟩)
    rw [hy] at this; cases this
  have hdomM : ∀ v y, M v = some y → y ∈ dom v := by
    intro v y hy
    obtain ⟨n, l, h1, h2, rfl, rfl⟩ := hsome v y hy
    obtain ⟨b, _, _, _, h3, _⟩ := hx n h1 l h2
    exact h3
  have hJ : InDomain N S dom M := fun v _ y hy => hdomM v y hy
  have hext : ∀ v y, InScope N S v → I v = some y → M v = some y := by
    intro v y hs hy
    obtain ⟨m, l, h1, h2, rfl⟩ := h.leaf_exists (pick := pick) hget ha v S Relation.ReflTransGen.refl hs
    obtain ⟨b, _, _, h4, _⟩ := hx m h1 l h2
    rw [h4 y hy]; exact e2 m ((hol.2 m).2 h1) l h2
  refine ⟨M, ?_, ?_, hext, hdomM, ?_⟩
  · rw [work_static _ (N.mapUpd I get pick) (N.mapCand get pick) (fun M n => Net.mapStateStep_eq N I get pick M n)]; exact e1
  · intro v
    constructor
    · rintro ⟨y, hy⟩
      obtain ⟨n, l, h1, h2, h3, _⟩ := hsome v y hy
      exact ⟨n, l, Net.mapReach_sub h1, h2, h3⟩
    · intro hs
      obtain ⟨m, l, h1, h2, rfl⟩ := h.leaf_exists (pick := pick) hget ha v S Relation.ReflTransGen.refl hs
      exact ⟨_, e2 m ((hol.2 m).2 h1) l h2⟩
  · -- every node the search comes to keeps its value
    have key : ∀ n, Reach (N.mapCand get pick) S n → N.max M n = N.max I n := by
      obtain ⟨rank, hr⟩ := id h.acyclic
      intro n
      induction hn : rank n using Nat.strong_induction_on generalizing n with
      | _ k ih =>
        intro hreach
        have hru := Net.mapReach_sub hreach
        have ihc : ∀ c ∈ N.mapCand get pick n, N.max M c = N.max I c := fun c hc =>
          ih (rank c) (by rw [← hn]; exact hr n c (Net.mapCand_sub N get pick (fun n c cs w hk h => Net.mapChoice_mem hk h) hc)) c rfl
            (Relation.ReflTransGen.tail hreach hc)
        cases hk : N.kind n with
        | leaf l =>
          obtain ⟨b, h1, _, _, _, h5⟩ := hx n hreach l hk
          rw [h1, hml n l M hk]; exact h5 M (e2 n ((hol.2 n).2 hreach) l hk)
        | product cs =>
          simp only [Net.mapCand, hk] at ihc
          rw [Net.max_unfold h.acyclic, Net.max_unfold h.acyclic]
          simp only [Net.maxStep, hk, mapM_congr ihc]
        | sum cs w =>
          obtain ⟨_, r, rfl, _, _⟩ := h.weights n hru cs w hk
          obtain ⟨b, hb⟩ := hfin n hreach
          obtain ⟨c, i, p, h1, h2, h3, h4, _⟩ := h.choice_spec (pick := pick) hget hru hk hb
          rw [hb]
          exact h.sum_choice hru hk hb hJ (fun v hs y hy => hext v y (InScope.reach hru hs) hy) h2 h3 h4 (ihc c (by simp [Net.mapCand, hk, h1]))
    rw [key S Relation.ReflTransGen.refl, ha]

end
end Gospn
