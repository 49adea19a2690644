import Verif.Spec.Draw
import Verif.Proofs.Collections
import Mathlib.Logic.Function.Basic
import Mathlib.Data.List.Perm.Basic
import Mathlib.Data.List.Nodup
/-
Lemmas about drawing a network.
-/
set_option linter.unusedSectionVars false
set_option linter.unusedSimpArgs false

namespace Gospn
open Spec
variable {ι F : Type}

/-- The names of the vertices. -/
def dnames (d : List (DStmt F)) : List DName := (vertices d).map (·.1)

theorem vertices_append (d e : List (DStmt F)) : vertices (d ++ e) = vertices d ++ vertices e := by
  induction d with
  | nil => rfl
  | cons x d ih => cases x <;> simp [vertices, ih]

theorem edges_append (d e : List (DStmt F)) : edges (d ++ e) = edges d ++ edges e := by
  induction d with
  | nil => rfl
  | cons x d ih => cases x <;> simp [edges, ih]

theorem links_ch {N : Net ι F} {n : ι} {c : ι} {x : Option F} (h : (c, x) ∈ links N n) : c ∈ N.ch n := by
  cases hk : N.kind n with
  | leaf l => simp [links, hk] at h
  | sum cs w =>
    simp only [links, hk] at h
    simpa [Net.ch, hk] using (List.of_mem_zip h).1
  | product cs =>
    simp only [links, hk, List.mem_map, Prod.mk.injEq] at h
    obtain ⟨a, ha, rfl, _⟩ := h
    simpa [Net.ch, hk] using ha

/-- A drawing that is being made: `P v` are the links of the vertex `v` that are still to be drawn. -/
structure DrawCore (N : Net ι F) (r : ι) (d : List (DStmt F)) (node : DName → ι) (top : DName) (P : DName → List (ι × Option F)) : Prop where
  distinct : (dnames d).Nodup
  labels : ∀ v l, (v, l) ∈ vertices d → l = nodeLabel N (node v)
  ends : ∀ a b w, (a, b, w) ∈ edges d → a ∈ dnames d ∧ b ∈ dnames d
  out : ∀ v ∈ dnames d, ((((edges d).filter (·.1 = v)).map fun e => (node e.2.1, e.2.2)) ++ P v).Perm (links N (node v))
  top_mem : top ∈ dnames d
  top_node : node top = r
  top_in : ∀ e ∈ edges d, e.2.1 ≠ top
  into : ∀ v ∈ dnames d, v ≠ top → ((edges d).filter (·.2.1 = v)).length = 1
  reach : ∀ v ∈ dnames d, Reach N.ch r (node v)

theorem DrawCore.start (N : Net ι F) (r : ι) (v : DName) (P : DName → List (ι × Option F)) (hP : (P v).Perm (links N r)) :
    DrawCore N r [.vertex v (nodeLabel N r)] (fun _ => r) v P where
  distinct := by simp [dnames, vertices]
  labels := by simp [vertices]
  ends := by simp [edges]
  out := by simpa [dnames, vertices, edges] using hP
  top_mem := by simp [dnames, vertices]
  top_node := rfl
  top_in := by simp [edges]
  into := by simp [dnames, vertices]
  reach := fun _ _ => Relation.ReflTransGen.refl

theorem DrawCore.congr {N : Net ι F} {r : ι} {d : List (DStmt F)} {node : DName → ι} {top : DName} {P P' : DName → List (ι × Option F)}
    (h : DrawCore N r d node top P) (hP : ∀ v ∈ dnames d, (P v).Perm (P' v)) : DrawCore N r d node top P' :=
  { h with out := fun v hv => ((hP v hv).symm.append_left _).trans (h.out v hv) }

theorem DrawCore.extend {N : Net ι F} {r : ι} {d : List (DStmt F)} {node : DName → ι} {top : DName} {P P' : DName → List (ι × Option F)}
    (h : DrawCore N r d node top P) {v u : DName} {n : ι} {lab : Option F} (hv : v ∉ dnames d) (hu : u ∈ dnames d)
    (hP : (P u).Perm ((n, lab) :: P' u)) (hP' : ∀ w ∈ dnames d, w ≠ u → (P w).Perm (P' w)) (hPv : (P' v).Perm (links N n)) :
    DrawCore N r (d ++ [.vertex v (nodeLabel N n)] ++ [.edge u v lab]) (Function.update node v n) top P' := by
  have hvs : vertices (d ++ [.vertex v (nodeLabel N n)] ++ [.edge u v lab]) = vertices d ++ [(v, nodeLabel N n)] := by
    simp [vertices_append, vertices]
  have hes : edges (d ++ [.vertex v (nodeLabel N n)] ++ [.edge u v lab]) = edges d ++ [(u, v, lab)] := by
    simp [edges_append, edges]
  have hns : dnames (d ++ [.vertex v (nodeLabel N n)] ++ [.edge u v lab]) = dnames d ++ [v] := by
    rw [dnames, hvs, List.map_append]
    rfl
  have hne : ∀ w ∈ dnames d, w ≠ v := fun w hw e => hv (e ▸ hw)
  have hkeep : ∀ w ∈ dnames d, Function.update node v n w = node w := fun w hw => Function.update_of_ne (hne w hw) _ _
  have hold : ∀ x, ((edges d).filter (·.1 = x)).map (fun e => (Function.update node v n e.2.1, e.2.2)) =
      ((edges d).filter (·.1 = x)).map fun e => (node e.2.1, e.2.2) := by
    intro x
    refine List.map_congr_left fun e he => ?_
    rw [hkeep _ (h.ends e.1 e.2.1 e.2.2 (List.mem_of_mem_filter he)).2]
  refine { distinct := ?_, labels := ?_, ends := ?_, out := ?_, top_mem := ?_, top_node := ?_, top_in := ?_, into := ?_, reach := ?_ }
  · rw [hns]
    refine List.nodup_append.2 ⟨h.distinct, by simp, ?_⟩
    intro a ha b hb
    rw [List.mem_singleton.1 hb]
    exact hne a ha
  · intro w l hw
    rw [hvs, List.mem_append] at hw
    rcases hw with hw | hw
    · rw [hkeep w (List.mem_map.2 ⟨(w, l), hw, rfl⟩)]
      exact h.labels w l hw
    · simp only [List.mem_singleton, Prod.mk.injEq] at hw
      rw [hw.1, hw.2, Function.update_self]
  · intro a b w hab
    rw [hes, List.mem_append] at hab
    rw [hns]
    rcases hab with hab | hab
    · exact ⟨List.mem_append_left _ (h.ends a b w hab).1, List.mem_append_left _ (h.ends a b w hab).2⟩
    · simp only [List.mem_singleton, Prod.mk.injEq] at hab
      rw [hab.1, hab.2.1]
      exact ⟨List.mem_append_left _ hu, by simp⟩
  · intro x hx
    rw [hns, List.mem_append] at hx
    rw [hes, List.filter_append, List.map_append, hold]
    rcases hx with hx | hx
    · rw [hkeep x hx]
      by_cases hxu : u = x
      · subst hxu
        refine List.Perm.trans ?_ (h.out u hx)
        simp only [List.filter_cons, List.filter_nil, decide_true, if_true, List.map_cons, List.map_nil, Function.update_self, List.append_assoc]
        exact (hP.symm).append_left _
      · rw [show List.filter (fun e : DName × DName × Option F => decide (e.1 = x)) [(u, v, lab)] = [] by simp [hxu]]
        simp only [List.map_nil, List.append_nil]
        exact ((hP' x hx (fun e => hxu e.symm)).symm.append_left _).trans (h.out x hx)
    · rw [List.mem_singleton] at hx
      subst hx
      have h1 : List.filter (fun e : DName × DName × Option F => decide (e.1 = x)) (edges d) = [] := by
        rw [List.filter_eq_nil_iff]
        intro e he
        have := hne e.1 (h.ends e.1 e.2.1 e.2.2 he).1
        simpa using this
      have h2 : List.filter (fun e : DName × DName × Option F => decide (e.1 = x)) [(u, x, lab)] = [] := by
        simp [hne u hu]
      rw [h1, h2, Function.update_self]
      simpa using hPv
  · rw [hns]
    exact List.mem_append_left _ h.top_mem
  · rw [hkeep top h.top_mem]
    exact h.top_node
  · intro e he
    rw [hes, List.mem_append] at he
    rcases he with he | he
    · exact h.top_in e he
    · rw [List.mem_singleton.1 he]
      exact fun e' => hne top h.top_mem e'.symm
  · intro x hx hxt
    rw [hns, List.mem_append] at hx
    rw [hes, List.filter_append, List.length_append]
    rcases hx with hx | hx
    · rw [h.into x hx hxt]
      have h2 : List.filter (fun e : DName × DName × Option F => decide (e.2.1 = x)) [(u, v, lab)] = [] := by
        have hvx : v ≠ x := fun e => hne x hx e.symm
        simp [hvx]
      rw [h2]
      rfl
    · rw [List.mem_singleton] at hx
      subst hx
      have h1 : List.filter (fun e : DName × DName × Option F => decide (e.2.1 = x)) (edges d) = [] := by
        rw [List.filter_eq_nil_iff]
        intro e he
        have := hne e.2.1 (h.ends e.1 e.2.1 e.2.2 he).2
        simpa using this
      rw [h1]
      simp
  · intro x hx
    rw [hns, List.mem_append] at hx
    rcases hx with hx | hx
    · rw [hkeep x hx]
      exact h.reach x hx
    · rw [List.mem_singleton.1 hx, Function.update_self]
      refine (h.reach u hu).tail (links_ch (x := lab) ((h.out u hu).subset ?_))
      exact List.mem_append_right _ (hP.symm.subset (by simp))

/-- The names that have been used. -/
def DrawSt.used (s : DrawSt F) : DName → Prop
  | .sum k => k < s.nsums
  | .product k => k < s.nprods
  | .var k => k < s.nvars
  | .other => False

variable [GoFloat F]

/-- The links of `v` that wait in the queue. -/
def pending (q : List (BFSPair ι F)) (v : DName) : List (ι × Option F) :=
  (q.filter (·.2.1 = some v)).map fun p => (p.1, if GoFloat.le (GoFloat.ofInt 0) p.2.2 then some p.2.2 else none)

theorem pending_append (q q' : List (BFSPair ι F)) (v : DName) : pending (q ++ q') v = pending q v ++ pending q' v := by
  simp [pending]

/-- What is known of the queue. -/
def QueueOk (N : Net ι F) (d : List (DStmt F)) (q : List (BFSPair ι F)) : Prop :=
  ∀ p ∈ q, (∀ l, N.kind p.1 ≠ .leaf l) ∧ ∃ u ∈ dnames d, p.2.1 = some u

/-- The label that `drawKids` gives to the `j`-th link. -/
def LabelOk (isSum : Bool) (w : List F) (j : Nat) (lab : Option F) : Prop :=
  (isSum = true ∧ ∃ x, lab = some x ∧ w[j]? = some x ∧ GoFloat.le (GoFloat.ofInt 0) x = true) ∨ (isSum = false ∧ w = [] ∧ lab = none)

theorem drawKids_right {N : Net ι F} {r : ι} {top name : DName} {isSum : Bool} {w : List F} {paths : ι → Nat} (hp : CountsPaths N paths)
    (hneg : GoFloat.le (GoFloat.ofInt 0 : F) (GoFloat.ofInt (-1)) = false) :
    ∀ (cs : List ι) (labs : List (Option F)) (i : Nat) (s : DrawSt F) (q : Queue (BFSPair ι F)) (node : DName → ι),
      (∀ c ∈ cs, ∀ l, N.kind c = .leaf l → l.sc[0]? = some (leafVar l)) →
      labs.length = cs.length → (∀ j lab, labs[j]? = some lab → LabelOk isSum w (i + j) lab) →
      DrawCore N r s.out node top (fun v => pending q.data v ++ if v = name then cs.zip labs else []) → name ∈ dnames s.out →
      (∀ v ∈ dnames s.out, s.used v) → QueueOk N s.out q.data →
      ∃ s' q' node', N.drawKids DrawSt.newLeaf name isSum w i cs s q = some (s', q') ∧
        DrawCore N r s'.out node' top (pending q'.data) ∧ (∀ v ∈ dnames s'.out, s'.used v) ∧ QueueOk N s'.out q'.data ∧ (dnames s.out).length ≤ (dnames s'.out).length ∧
        (dnames s'.out).length + (q'.data.map fun p => paths p.1).sum = (dnames s.out).length + (q.data.map fun p => paths p.1).sum + (cs.map paths).sum := by
  intro cs
  induction cs with
  | nil =>
    intro labs i s q node _ _ _ hc _ hu hq
    refine ⟨s, q, node, rfl, hc.congr fun v _ => ?_, hu, hq, Nat.le_refl _, by simp⟩
    simp
  | cons c cs ih =>
    intro labs i s q node hsc hlen hlab hc hname hu hq
    obtain ⟨lab, labs, rfl⟩ : ∃ lab labs', labs = lab :: labs' := by
      cases labs with
      | nil => simp at hlen
      | cons a l => exact ⟨a, l, rfl⟩
    have hlab0 := hlab 0 lab rfl
    have hlab' : ∀ j lab, labs[j]? = some lab → LabelOk isSum w (i + 1 + j) lab := by
      intro j lab hj
      have := hlab (j + 1) lab (by simpa using hj)
      rwa [show i + (j + 1) = i + 1 + j by omega] at this
    have hlen' : labs.length = cs.length := by simpa using hlen
    have hsc' : ∀ c ∈ cs, ∀ l, N.kind c = .leaf l → l.sc[0]? = some (leafVar l) := fun x hx => hsc x (List.mem_cons_of_mem _ hx)
    have inner : (∀ l, N.kind c ≠ .leaf l) → ∃ tw : F, queueWeight w i = some tw ∧
        (if GoFloat.le (GoFloat.ofInt 0) tw then some tw else none) = lab := by
      intro _
      rcases hlab0 with ⟨_, x, rfl, hx, hx0⟩ | ⟨_, rfl, rfl⟩
      · refine ⟨x, ?_, by simp [hx0]⟩
        rw [queueWeight, if_neg]
        · simpa using hx
        · intro hw
          rw [List.isEmpty_iff.1 hw] at hx
          simp at hx
      · exact ⟨GoFloat.ofInt (-1), by simp [queueWeight], by simp [hneg]⟩
    have step : (∀ l, N.kind c ≠ .leaf l) → ∀ tw : F, (if GoFloat.le (GoFloat.ofInt 0) tw then some tw else none) = lab →
        ∃ s' q' node', N.drawKids DrawSt.newLeaf name isSum w (i + 1) cs s (q.enqueue (c, some name, tw)) = some (s', q') ∧
        DrawCore N r s'.out node' top (pending q'.data) ∧ (∀ v ∈ dnames s'.out, s'.used v) ∧ QueueOk N s'.out q'.data ∧ (dnames s.out).length ≤ (dnames s'.out).length ∧
        (dnames s'.out).length + (q'.data.map fun p => paths p.1).sum =
          (dnames s.out).length + (q.data.map fun p => paths p.1).sum + ((c :: cs).map paths).sum := by
      intro hk tw htw
      obtain ⟨s', q', node', h1, h2, h3, h4, h6, h5⟩ := ih labs (i + 1) s (q.enqueue (c, some name, tw)) node hsc' hlen' hlab' (by
          refine hc.congr fun v _ => ?_
          simp only [Queue.enqueue, pending_append]
          by_cases hv : v = name
          · subst hv
            simp [pending, htw, List.zip_cons_cons]
          · have hv' : name ≠ v := fun e => hv e.symm
            simp [pending, hv, hv']) hname hu (by
          intro p hp'
          simp only [Queue.enqueue, List.mem_append, List.mem_singleton] at hp'
          rcases hp' with hp' | rfl
          · exact hq p hp'
          · exact ⟨hk, name, hname, rfl⟩)
      refine ⟨s', q', node', h1, h2, h3, h4, h6, ?_⟩
      rw [h5]
      simp only [Queue.enqueue, List.map_append, List.sum_append, List.map_cons, List.map_nil, List.sum_cons, List.sum_nil]
      omega
    cases hk : N.kind c with
    | sum xs ws =>
      obtain ⟨tw, ht, ht'⟩ := inner (by simp [hk])
      simp only [Net.drawKids, hk, ht, Option.bind_eq_bind, Option.bind_some]
      exact step (by simp [hk]) tw ht'
    | product xs =>
      obtain ⟨tw, ht, ht'⟩ := inner (by simp [hk])
      simp only [Net.drawKids, hk, ht, Option.bind_eq_bind, Option.bind_some]
      exact step (by simp [hk]) tw ht'
    | leaf l =>
      have hl : leafWeight isSum w i = some lab := by
        rcases hlab0 with ⟨rfl, x, rfl, hx, _⟩ | ⟨rfl, _, rfl⟩
        · have hx : w[i]? = some x := by simpa using hx
          simp [leafWeight, hx]
        · simp [leafWeight]
      have hlinks : links N c = [] := by simp [links, hk]
      have hnl : nodeLabel N c = .var (leafVar l) := by simp [nodeLabel, hk]
      have hfresh : DName.var s.nvars ∉ dnames s.out := fun h => Nat.lt_irrefl _ (hu _ h)
      have hname' : name ≠ .var s.nvars := fun e => hfresh (e ▸ hname)
      have hpend : pending q.data (.var s.nvars) = [] := by
        simp only [pending, List.map_eq_nil_iff, List.filter_eq_nil_iff]
        intro p hpq
        obtain ⟨u, hu1, hu2⟩ := (hq p hpq).2
        rw [hu2]
        simp only [Option.some.injEq, decide_eq_true_eq]
        exact fun e => hfresh (e ▸ hu1)
      simp only [Net.drawKids, hk, hsc c (by simp) l hk, Option.bind_eq_bind, Option.bind_some, DrawSt.newLeaf, hl]
      have hd : dnames (s.out ++ [DStmt.vertex (.var s.nvars) (.var (leafVar l))] ++ [.edge name (.var s.nvars) lab]) = dnames s.out ++ [.var s.nvars] := by
        simp [dnames, vertices_append, vertices]
      obtain ⟨s', q', node', h1, h2, h3, h4, h6, h5⟩ := ih labs (i + 1)
        { s with nvars := s.nvars + 1, out := s.out ++ [.vertex (.var s.nvars) (.var (leafVar l))] ++ [.edge name (.var s.nvars) lab] } q
        (Function.update node (.var s.nvars) c) hsc' hlen' hlab' (by
          rw [← hnl]
          refine hc.extend (P' := fun v => pending q.data v ++ if v = name then cs.zip labs else []) hfresh hname ?_ ?_ ?_
          · simp only [if_true, List.zip_cons_cons]
            exact List.perm_middle
          · intro v _ hv
            simp [hv]
          · simp [hpend, hname'.symm, hlinks]) (by
          rw [hd]
          exact List.mem_append_left _ hname) (by
          intro v hv
          rw [hd, List.mem_append, List.mem_singleton] at hv
          rcases hv with hv | rfl
          · have := hu v hv
            cases v with
            | var k => exact Nat.lt_succ_of_lt this
            | _ => exact this
          · exact Nat.lt_succ_self _) (by
          intro p hpq
          obtain ⟨g1, u, g2, g3⟩ := hq p hpq
          exact ⟨g1, u, by rw [hd]; exact List.mem_append_left _ g2, g3⟩)
      rw [hd] at h6
      refine ⟨s', q', node', h1, h2, h3, h4, le_trans (by simp) h6, ?_⟩
      rw [h5, hd]
      have : paths c = 1 := by rw [hp c]; simp [Net.ch, hk]
      simp only [List.length_append, List.length_cons, List.length_nil, List.map_cons, List.sum_cons, this]
      omega

theorem drawNode_right {N : Net ι F} {r n : ι} {top name : DName} {paths : ι → Nat} (hp : CountsPaths N paths)
    (hneg : GoFloat.le (GoFloat.ofInt 0 : F) (GoFloat.ofInt (-1)) = false) (hw : ∀ cs w, N.kind n = .sum cs w → w.length = cs.length ∧ ∀ x ∈ w, GoFloat.le (GoFloat.ofInt 0) x = true)
    (hsc : ∀ c ∈ N.ch n, ∀ l, N.kind c = .leaf l → l.sc[0]? = some (leafVar l)) (hn : ∀ l, N.kind n ≠ .leaf l)
    (s : DrawSt F) (q : Queue (BFSPair ι F)) (node : DName → ι)
    (hc : DrawCore N r s.out node top (fun v => pending q.data v ++ if v = name then links N n else [])) (hname : name ∈ dnames s.out)
    (hu : ∀ v ∈ dnames s.out, s.used v) (hq : QueueOk N s.out q.data) :
      ∃ s' q' node', (match N.kind n with
          | .sum cs w => N.drawKids DrawSt.newLeaf name true w 0 cs s q
          | .product cs => N.drawKids DrawSt.newLeaf name false [] 0 cs s q
          | .leaf _ => some (s, q)) = some (s', q') ∧
        DrawCore N r s'.out node' top (pending q'.data) ∧ (∀ v ∈ dnames s'.out, s'.used v) ∧ QueueOk N s'.out q'.data ∧ (dnames s.out).length ≤ (dnames s'.out).length ∧
        (dnames s'.out).length + (q'.data.map fun p => paths p.1).sum + 1 = (dnames s.out).length + (q.data.map fun p => paths p.1).sum + paths n := by
  have hpn := hp n
  cases hk : N.kind n with
  | leaf l => exact absurd hk (hn l)
  | sum cs w =>
    have hch : N.ch n = cs := by simp [Net.ch, hk]
    obtain ⟨hw1, hw2⟩ := hw cs w hk
    rw [hch] at hsc hpn
    obtain ⟨s', q', node', h1, h2, h3, h4, h6, h5⟩ := drawKids_right (isSum := true) (w := w) hp hneg cs (w.map some) 0 s q node hsc (by simpa using hw1) (by
        intro j lab hj
        rw [List.getElem?_map, Option.map_eq_some_iff] at hj
        obtain ⟨x, hx, rfl⟩ := hj
        exact Or.inl ⟨rfl, x, rfl, by simpa using hx, hw2 x (List.mem_of_getElem? hx)⟩) (by simpa [links, hk] using hc) hname hu hq
    exact ⟨s', q', node', h1, h2, h3, h4, h6, by omega⟩
  | product cs =>
    have hch : N.ch n = cs := by simp [Net.ch, hk]
    rw [hch] at hsc hpn
    have hz : links N n = cs.zip (cs.map fun _ => none) := by
      simp only [links, hk]
      clear hsc hpn hch hk
      induction cs with
      | nil => rfl
      | cons c cs ih => simp [ih]
    obtain ⟨s', q', node', h1, h2, h3, h4, h6, h5⟩ := drawKids_right (isSum := false) (w := []) hp hneg cs (cs.map fun _ => none) 0 s q node hsc (by simp) (by
        intro j lab hj
        rw [List.getElem?_map, Option.map_eq_some_iff] at hj
        obtain ⟨x, hx, rfl⟩ := hj
        exact Or.inr ⟨rfl, rfl, rfl⟩) (by rw [hz] at hc; exact hc) hname hu hq
    exact ⟨s', q', node', h1, h2, h3, h4, h6, by omega⟩

/-- The vertex of a node that is not a leaf has a new name and the label of the node. -/
theorem drawSelf_right {N : Net ι F} {n : ι} (hn : ∀ l, N.kind n ≠ .leaf l) (s : DrawSt F) (hu : ∀ v ∈ dnames s.out, s.used v) :
    (N.drawSelf n s).1 ∉ dnames s.out ∧ (N.drawSelf n s).2.out = s.out ++ [.vertex (N.drawSelf n s).1 (nodeLabel N n)] ∧
      (∀ v, s.used v → (N.drawSelf n s).2.used v) ∧ (N.drawSelf n s).2.used (N.drawSelf n s).1 := by
  cases hk : N.kind n with
  | leaf l => exact absurd hk (hn l)
  | sum cs w =>
    simp only [Net.drawSelf, hk, nodeLabel]
    refine ⟨fun h => Nat.lt_irrefl _ (hu _ h), trivial, ?_, Nat.lt_succ_self _⟩
    intro v hv
    cases v with
    | sum k => exact Nat.lt_succ_of_lt hv
    | _ => exact hv
  | product cs =>
    simp only [Net.drawSelf, hk, nodeLabel]
    refine ⟨fun h => Nat.lt_irrefl _ (hu _ h), trivial, ?_, Nat.lt_succ_self _⟩
    intro v hv
    cases v with
    | product k => exact Nat.lt_succ_of_lt hv
    | _ => exact hv

theorem drawLoop_right {N : Net ι F} {r : ι} {top : DName} {paths : ι → Nat} (hp : CountsPaths N paths)
    (hneg : GoFloat.le (GoFloat.ofInt 0 : F) (GoFloat.ofInt (-1)) = false) (hd : Drawable N r) :
    ∀ (fuel : Nat) (s : DrawSt F) (q : Queue (BFSPair ι F)) (node : DName → ι), (q.data.map fun p => paths p.1).sum ≤ fuel →
      DrawCore N r s.out node top (pending q.data) → (∀ v ∈ dnames s.out, s.used v) → QueueOk N s.out q.data →
      ∃ s' node', N.drawLoop DrawSt.newLeaf fuel s q = some s' ∧ DrawCore N r s'.out node' top (fun _ => []) ∧
        (dnames s'.out).length = (dnames s.out).length + (q.data.map fun p => paths p.1).sum := by
  have hpos : ∀ n, 0 < paths n := fun n => by rw [hp n]; omega
  have done : ∀ (fuel : Nat) (s : DrawSt F) (q : Queue (BFSPair ι F)), q.data = [] → N.drawLoop DrawSt.newLeaf fuel s q = some s := by
    intro fuel s q hq
    cases fuel <;> simp [Net.drawLoop, Queue.isEmpty, hq]
  intro fuel
  induction fuel with
  | zero =>
    intro s q node hf hc hu hq
    have hnil : q.data = [] := by
      cases hqd : q.data with
      | nil => rfl
      | cons p t =>
        rw [hqd] at hf
        have := hpos p.1
        simp only [List.map_cons, List.sum_cons] at hf
        omega
    exact ⟨s, node, done 0 s q hnil, hc.congr fun v _ => by simp [hnil, pending], by simp [hnil]⟩
  | succ fuel ih =>
    intro s q node hf hc hu hq
    cases hqd : q.data with
    | nil => exact ⟨s, node, done _ s q hqd, hc.congr fun v _ => by simp [hqd, pending], by simp⟩
    | cons p t =>
      rw [hqd] at hf hc hq
      obtain ⟨hpl, u, hu1, hu2⟩ := hq p (by simp)
      obtain ⟨n, pn, pw⟩ := p
      simp only at hpl hu2
      subst hu2
      have hmem : (n, if GoFloat.le (GoFloat.ofInt 0) pw then some pw else none) ∈ pending ((n, some u, pw) :: t) u := by simp [pending]
      have hch : n ∈ N.ch (node u) := links_ch ((hc.out u hu1).subset (List.mem_append_right _ hmem))
      have hr : Reach N.ch r n := (hc.reach u hu1).tail hch
      obtain ⟨g1, g2, g3, g4⟩ := drawSelf_right hpl s hu
      have ht : ∀ p ∈ t, p.2.1 ≠ some (N.drawSelf n s).1 := by
        intro p hpt e
        obtain ⟨_, u', hu', e'⟩ := hq p (List.mem_cons_of_mem _ hpt)
        rw [e'] at e
        exact g1 (Option.some.inj e ▸ hu')
      have hpt : pending t (N.drawSelf n s).1 = [] := by
        simp only [pending, List.map_eq_nil_iff, List.filter_eq_nil_iff]
        intro p hpt
        simpa using ht p hpt
      have hdn : dnames (s.out ++ [.vertex (N.drawSelf n s).1 (nodeLabel N n)] ++
          [DStmt.edge u (N.drawSelf n s).1 (if GoFloat.le (GoFloat.ofInt 0) pw then some pw else none)]) = dnames s.out ++ [(N.drawSelf n s).1] := by
        simp [dnames, vertices_append, vertices]
      have hcore := hc.extend (n := n) (P' := fun v => pending t v ++ if v = (N.drawSelf n s).1 then links N n else []) g1 hu1
        (lab := if GoFloat.le (GoFloat.ofInt 0) pw then some pw else none) (by
          have : u ≠ (N.drawSelf n s).1 := fun e => g1 (e ▸ hu1)
          simp [pending, this]) (by
          intro w hw hwu
          have : w ≠ (N.drawSelf n s).1 := fun e => g1 (e ▸ hw)
          have hwu' : u ≠ w := fun e => hwu e.symm
          simp [pending, this, hwu']) (by simp [hpt])
      have hout : (drawUp (N.drawSelf n s).1 (some u) pw (N.drawSelf n s).2).out = s.out ++ [.vertex (N.drawSelf n s).1 (nodeLabel N n)] ++
          [.edge u (N.drawSelf n s).1 (if GoFloat.le (GoFloat.ofInt 0) pw then some pw else none)] := by
        simp only [drawUp, g2]
      rw [← hout] at hcore hdn
      have hused : ∀ v, (drawUp (N.drawSelf n s).1 (some u) pw (N.drawSelf n s).2).used v = (N.drawSelf n s).2.used v := by
        intro v
        cases v <;> rfl
      obtain ⟨s', q', node', k1, k2, k3, k4, k6, k5⟩ := drawNode_right hp hneg (hd.weights n hr)
        (fun c hcn l hl => hd.scopes c l (hr.tail hcn) hl) hpl (drawUp (N.drawSelf n s).1 (some u) pw (N.drawSelf n s).2)
        (Queue.maybeShrink { q with data := t }) (Function.update node (N.drawSelf n s).1 n) (by simpa using hcore)
        (by rw [hdn]; simp) (by
          intro v hv
          rw [hused]
          rw [hdn, List.mem_append, List.mem_singleton] at hv
          rcases hv with hv | rfl
          · exact g3 v (hu v hv)
          · exact g4) (by
          intro p hp'
          simp only [Queue.maybeShrink_data] at hp'
          obtain ⟨a, x, b, c⟩ := hq p (List.mem_cons_of_mem _ hp')
          exact ⟨a, x, by rw [hdn]; exact List.mem_append_left _ b, c⟩)
      simp only [Queue.maybeShrink_data, hdn, List.length_append, List.length_singleton] at k5 k6
      simp only [List.map_cons, List.sum_cons] at hf ⊢
      obtain ⟨s2, node2, l1, l2, l3⟩ := ih s' q' node' (by omega) k2 k3 k4
      refine ⟨s2, node2, ?_, l2, by omega⟩
      have hnode : N.drawNode DrawSt.newLeaf (n, some u, pw) s (Queue.maybeShrink { q with data := t }) = some (s', q') := k1
      rw [← l1]
      simp [Net.drawLoop, Queue.isEmpty, hqd, Queue.dequeue, hnode]

/-- More fuel than enough changes nothing. -/
theorem drawLoop_mono {N : Net ι F} {leaf : DrawSt F → Int → DName × DrawSt F} : ∀ (fuel : Nat) (s : DrawSt F) (q : Queue (BFSPair ι F)) (a : DrawSt F),
    N.drawLoop leaf fuel s q = some a → ∀ fuel' ≥ fuel, N.drawLoop leaf fuel' s q = some a := by
  intro fuel
  induction fuel with
  | zero =>
    intro s q a h fuel' _
    simp only [Net.drawLoop] at h
    split at h
    · rename_i hq
      cases fuel' <;> simp only [Net.drawLoop, hq, if_true, h]
    · cases h
  | succ fuel ih =>
    intro s q a h fuel' hf
    obtain ⟨k, rfl⟩ : ∃ k, fuel' = k + 1 := ⟨fuel' - 1, by omega⟩
    simp only [Net.drawLoop] at h ⊢
    split at h
    · rename_i hq
      rw [if_pos hq, h]
    · rename_i hq
      rw [if_neg hq]
      simp only [Option.bind_eq_bind, Option.bind_eq_some_iff] at h ⊢
      obtain ⟨x, hx, y, hy, h⟩ := h
      exact ⟨x, hx, y, hy, ih _ _ _ h k (by omega)⟩

theorem drawGraph_mono {N : Net ι F} {r : ι} {fuel : Nat} {d : List (DStmt F)} (h : N.drawGraph fuel r = some d) {fuel' : Nat} (hf : fuel ≤ fuel') :
    N.drawGraph fuel' r = some d := by
  cases hk : N.kind r with
  | leaf l => simpa [Net.drawGraph, hk] using h
  | _ =>
    simp only [Net.drawGraph, hk, Option.map_eq_some_iff] at h ⊢
    obtain ⟨a, ha, e⟩ := h
    exact ⟨a, drawLoop_mono _ _ _ _ ha _ hf, e⟩

theorem drawGraphTools_mono {N : Net ι F} {r : ι} {fuel : Nat} {d : List (DStmt F)} (h : N.drawGraphTools fuel r = some d) {fuel' : Nat} (hf : fuel ≤ fuel') :
    N.drawGraphTools fuel' r = some d := by
  cases hk : N.kind r with
  | leaf l => simpa [Net.drawGraphTools, hk] using h
  | _ =>
    simp only [Net.drawGraphTools, hk, Option.map_eq_some_iff] at h ⊢
    obtain ⟨a, ha, e⟩ := h
    exact ⟨a, drawLoop_mono _ _ _ _ ha _ hf, e⟩

/-- `DrawGraph` on a network that is not a leaf. -/
theorem drawGraph_right {N : Net ι F} {r : ι} {paths : ι → Nat} (hp : CountsPaths N paths)
    (hneg : GoFloat.le (GoFloat.ofInt 0 : F) (GoFloat.ofInt (-1)) = false) (hd : Drawable N r) (hr : ∀ l, N.kind r ≠ .leaf l)
    {fuel : Nat} (hf : paths r ≤ fuel) :
    ∃ d node top, N.drawGraph fuel r = some d ∧ DrawCore N r d node top (fun _ => []) ∧ (dnames d).length = paths r := by
  have hpos : 0 < paths r := by rw [hp r]; omega
  obtain ⟨fuel, rfl⟩ : ∃ k, fuel = k + 1 := ⟨fuel - 1, by omega⟩
  have hemp : ∀ v ∈ dnames (DrawSt.init (F := F)).out, (DrawSt.init (F := F)).used v := by simp [DrawSt.init, dnames, vertices]
  obtain ⟨g1, g2, g3, g4⟩ := drawSelf_right hr (DrawSt.init (F := F)) hemp
  have hout : (N.drawSelf r .init).2.out = [.vertex (N.drawSelf r .init).1 (nodeLabel N r)] := by rw [g2]; rfl
  have hdn : dnames (N.drawSelf r .init).2.out = [(N.drawSelf r .init).1] := by rw [hout]; simp [dnames, vertices]
  obtain ⟨s', q', node', k1, k2, k3, k4, k6, k5⟩ := drawNode_right (r := r) (n := r) (top := (N.drawSelf r .init).1) (name := (N.drawSelf r .init).1) hp hneg
    (hd.weights r .refl) (fun c hc l hl => hd.scopes c l (Relation.ReflTransGen.single hc) hl) hr (N.drawSelf r .init).2
    (Queue.maybeShrink ⟨[], 1⟩) (fun _ => r) (by
      rw [hout]
      exact DrawCore.start N r _ _ (by simp [pending])) (by rw [hdn]; simp) (by
      rw [hdn]
      intro v hv
      rw [List.mem_singleton.1 hv]
      exact g4) (by simp [QueueOk])
  simp only [Queue.maybeShrink_data, hdn, List.length_singleton, List.map_nil, List.sum_nil] at k5 k6
  obtain ⟨s2, node2, l1, l2, l3⟩ := drawLoop_right hp hneg hd fuel s' q' node' (by omega) k2 k3 k4
  refine ⟨s2.out, node2, _, ?_, l2, by omega⟩
  have hnode : N.drawNode DrawSt.newLeaf (r, none, GoFloat.ofInt (-1)) .init (Queue.maybeShrink ⟨[], 1⟩) = some (s', q') := k1
  have hloop : N.drawLoop DrawSt.newLeaf (fuel + 1) .init (Queue.new.enqueue (r, none, GoFloat.ofInt (-1))) = some s2 := by
    rw [← l1]
    simp [Net.drawLoop, Queue.isEmpty, Queue.dequeue, Queue.enqueue, Queue.new, hnode]
  cases hk : N.kind r with
  | leaf l => exact absurd hk (hr l)
  | sum cs w => simp [Net.drawGraph, hk, hloop]
  | product cs => simp [Net.drawGraph, hk, hloop]

theorem DrawCore.unfolds {N : Net ι F} {r : ι} {d : List (DStmt F)} {node : DName → ι} {top : DName}
    (h : DrawCore N r d node top (fun _ => [])) : Unfolds N r d node top :=
  { h with out := fun v hv => by simpa using h.out v hv }

theorem CountsPaths.acyclic {N : Net ι F} {paths : ι → Nat} (h : CountsPaths N paths) : Acyclic N.ch := by
  refine ⟨paths, fun u c hc => ?_⟩
  rw [h u]
  have := List.single_le_sum (l := (N.ch u).map paths) (fun _ _ => Nat.zero_le _) (paths c) (List.mem_map_of_mem hc)
  omega

theorem exists_paths {N : Net ι F} (hac : Acyclic N.ch) : ∃ paths : ι → Nat, CountsPaths N paths := by
  obtain ⟨rank, hr⟩ := hac
  let f : Nat → ι → Nat := fun k => Nat.rec (fun _ => 0) (fun _ g n => 1 + ((N.ch n).map g).sum) k
  have hs : ∀ k n, rank n < k → ∀ k', rank n < k' → f k n = f k' n := by
    intro k
    induction k with
    | zero => intro n h; omega
    | succ k ih =>
      intro n hn k' hk'
      obtain ⟨k', rfl⟩ : ∃ j, k' = j + 1 := ⟨k' - 1, by omega⟩
      show 1 + ((N.ch n).map (f k)).sum = 1 + ((N.ch n).map (f k')).sum
      congr 2
      refine List.map_congr_left fun c hc => ?_
      have := hr n c hc
      exact ih c (by omega) k' (by omega)
  refine ⟨fun n => f (rank n + 1) n, fun n => ?_⟩
  show 1 + ((N.ch n).map (f (rank n))).sum = _
  congr 2
  refine List.map_congr_left fun c hc => ?_
  have := hr n c hc
  exact hs (rank n) c (by omega) (rank c + 1) (by omega)

/-- Every node below the root is drawn. -/
theorem Spec.Unfolds.onto {N : Net ι F} {r : ι} {d : List (DStmt F)} {node : DName → ι} {top : DName} (h : Unfolds N r d node top)
    (hw : ∀ n, Reach N.ch r n → ∀ cs w, N.kind n = .sum cs w → w.length = cs.length) :
    ∀ n, Reach N.ch r n → ∃ v ∈ (vertices d).map (·.1), node v = n := by
  intro n hn
  induction hn with
  | refl => exact ⟨top, h.top_mem, h.top_node⟩
  | @tail m c hm hc ih =>
    obtain ⟨v, hv, rfl⟩ := ih
    have hl : ∃ x, (c, x) ∈ links N (node v) := by
      cases hk : N.kind (node v) with
      | leaf l => simp [Net.ch, hk] at hc
      | product cs => exact ⟨none, by simpa [links, hk, Net.ch] using hc⟩
      | sum cs w =>
        simp only [Net.ch, hk] at hc
        obtain ⟨i, hi, rfl⟩ := List.getElem_of_mem hc
        have hiw : i < w.length := by rw [hw _ hm cs w hk]; exact hi
        refine ⟨some w[i], ?_⟩
        simp only [links, hk]
        refine List.mem_iff_getElem.2 ⟨i, by simp [hi, hiw], by simp⟩
    obtain ⟨x, hx⟩ := hl
    have := (h.out v hv).symm.subset hx
    rw [List.mem_map] at this
    obtain ⟨e, he, hex⟩ := this
    exact ⟨e.2.1, (h.ends e.1 e.2.1 e.2.2 (List.mem_of_mem_filter he)).2, (Prod.ext_iff.1 hex).1⟩

theorem links_fst {N : Net ι F} {n : ι} (hw : ∀ cs w, N.kind n = .sum cs w → w.length = cs.length) : (links N n).map (·.1) = N.ch n := by
  cases hk : N.kind n with
  | leaf l => simp [links, hk, Net.ch]
  | product cs => simp [links, hk, Net.ch, Function.comp_def]
  | sum cs w =>
    simp only [links, hk, Net.ch]
    exact List.map_fst_zip (by simp [hw cs w hk])

/-- The vertex above a vertex. -/
theorem Spec.Unfolds.parent {N : Net ι F} {r : ι} {d : List (DStmt F)} {node : DName → ι} {top : DName} (h : Unfolds N r d node top)
    {v : DName} (hv : v ∈ (vertices d).map (·.1)) (hne : v ≠ top) :
    ∃ u w, (u, v, w) ∈ edges d ∧ u ∈ (vertices d).map (·.1) ∧ node v ∈ N.ch (node u) := by
  have h1 := h.into v hv hne
  obtain ⟨e, he⟩ : ∃ e, e ∈ (edges d).filter (·.2.1 = v) := List.exists_mem_of_length_pos (by omega)
  rw [List.mem_filter] at he
  obtain ⟨he, hev⟩ := he
  obtain ⟨a, b, w⟩ := e
  have hb : b = v := by simpa using hev
  subst hb
  have ha := (h.ends _ _ _ he).1
  refine ⟨a, w, he, ha, links_ch (x := w) ((h.out a ha).subset ?_)⟩
  exact List.mem_map.2 ⟨(a, b, w), List.mem_filter.2 ⟨he, by simp⟩, rfl⟩

/-- Where no node is shared, no node is drawn twice. -/
theorem Spec.Unfolds.draws {N : Net ι F} {r : ι} {d : List (DStmt F)} {node : DName → ι} {top : DName} (h : Unfolds N r d node top) (hac : Acyclic N.ch)
    (hreach : ∀ v ∈ (vertices d).map (·.1), Reach N.ch r (node v))
    (hw : ∀ n, Reach N.ch r n → ∀ cs w, N.kind n = .sum cs w → w.length = cs.length) (hs : Unshared N r) : Draws N r d node top := by
  obtain ⟨rank, hrank⟩ := id hac
  have hle : ∀ n, Reach N.ch r n → rank n ≤ rank r := by
    intro n hn
    induction hn with
    | refl => exact Nat.le_refl _
    | tail _ hc ih => exact le_trans (Nat.le_of_lt (hrank _ _ hc)) ih
  have htop : ∀ u ∈ (vertices d).map (·.1), node u = r → u = top := by
    intro u hu hur
    by_contra hne
    obtain ⟨p, _, _, hp, hc⟩ := h.parent hu hne
    exact hs.root _ (hreach p hp) (hur ▸ hc)
  refine { h with onto := fun n => ⟨h.onto hw n, ?_⟩, once := ?_ }
  · rintro ⟨v, hv, rfl⟩
    exact hreach v hv
  · have key : ∀ k, ∀ v ∈ (vertices d).map (·.1), rank r - rank (node v) = k → ∀ u ∈ (vertices d).map (·.1), node v = node u → v = u := by
      intro k
      induction k using Nat.strong_induction_on with
      | _ k ih =>
        intro v hv hk u hu huv
        by_cases hvt : v = top
        · rw [hvt]
          refine (htop u hu ?_).symm
          rw [← huv, hvt, h.top_node]
        · have hut : u ≠ top := by
            intro e
            refine hvt (htop v hv ?_)
            rw [huv, e, h.top_node]
          obtain ⟨p, x, hpe, hp, hpc⟩ := h.parent hv hvt
          obtain ⟨p', x', hpe', hp', hpc'⟩ := h.parent hu hut
          have hpp : node p = node p' := hs.parent _ _ _ (hreach p hp) (hreach p' hp') hpc (huv ▸ hpc')
          have hlt := hrank _ _ hpc
          have := hle _ (hreach p hp)
          obtain rfl := ih (rank r - rank (node p)) (by omega) p hp rfl p' hp' hpp
          have hnd : (((edges d).filter (·.1 = p)).map fun e => node e.2.1).Nodup := by
            have h1 := (h.out p hp).map (·.1)
            rw [links_fst (hw _ (hreach p hp)), List.map_map] at h1
            exact h1.nodup_iff.2 (hs.once _ (hreach p hp))
          have := List.inj_on_of_nodup_map hnd (List.mem_filter.2 ⟨hpe, by simp⟩) (List.mem_filter.2 ⟨hpe', by simp⟩) huv
          simpa using (Prod.ext_iff.1 (Prod.ext_iff.1 this).2).1
    intro v hv u hu
    exact key _ v hv rfl u hu

end Gospn
