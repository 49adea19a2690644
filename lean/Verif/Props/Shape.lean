/-
Property C94: the networks that structure learning builds can be handed to the inference routines, to `ComputeScope` and to the serialiser.
-/
import Verif.Proofs.Shape
import Verif.Props.Dennis
import Verif.Props.Gens
import Verif.Props.PoonStruct
import Verif.Props.Serial
import Verif.Props.Structure

set_option linter.unusedSectionVars false
set_option linter.unusedSimpArgs false

namespace Gospn
open Spec GoFloat

section
variable {ι F : Type} [GoFloat F]

/-- C94: in a valid network of alternating sums and products no edge is bridged by a longer path. -/
theorem C94_layered (N : Net ι F) (S : ι) (h : Layered N S) : TransitivelyReduced N.ch S ∧ SiblingOrdered N.ch S :=
  ⟨h.reduced, h.reduced.siblingOrdered⟩

/-- C94: nor in a tree. -/
theorem C94_tree (N : Net ι F) (S : ι) (hac : Acyclic N.ch) (h : TreeBelow N.ch S) : TransitivelyReduced N.ch S ∧ SiblingOrdered N.ch S :=
  ⟨h.reduced hac, (h.reduced hac).siblingOrdered⟩

end

section
variable {ι F : Type} [GoFloat F] [Fintype ι] [DecidableEq ι]

/-- What a user relies on who hands the network to the library: `TopSortTarjan` lists children first; `Inference` is `Value`; `StoreInference` and `StoreMAP` store the
`Value` and the `Max` of every node, for every storage a client can reach and every usable ticket; `ComputeScope` finds the scope of every node; and what is written
by `Marshal` is read back as a copy up to the six decimals of the format. -/
structure RoutinesRight (N : Net ι F) (S : ι) : Prop where
  order : DependencyOrder N.ch S (topSortTarjan N.ch S none).items
  inference : ∀ I, N.inference S I = N.value I S
  storeInference : ∀ (I : VarSet) (ops : List (StOp ι F)) (c : Client ι F) (outs : List (StOut F)), Client.new.run ops = some (c, outs) →
    ∀ tk : Int, (tk < 0 ∨ c.s.table tk ≠ none) → N.value I S ≠ none →
      ∃ st', N.storeInference S I tk c.s = some (some (S, usedTicket c.s tk), st') ∧ ∀ n, st'.entry (usedTicket c.s tk) n 0 = N.value I n ∧ N.value I n ≠ none
  storeMAP : ∀ (I : VarSet) (ops : List (StOp ι F)) (c : Client ι F) (outs : List (StOut F)), Client.new.run ops = some (c, outs) →
    ∀ tk : Int, (tk < 0 ∨ c.s.table tk ≠ none) → ∀ pick res st', N.storeMAP S I tk c.s pick = some (res, st') →
      (∃ M, res = some (S, usedTicket c.s tk, M)) ∧ ∀ n, st'.entry (usedTicket c.s tk) n 0 = N.max I n ∧ N.max I n ≠ none
  scope : ∀ (ord : ι → List Int → List Int) (raw : ι → List Int), LeafScopes N S raw → (∀ s l, (ord s l).Perm l) →
    ∀ n, (computeScope N.ch ord S raw n).Nodup ∧ ∀ v, v ∈ computeScope N.ch ord S raw n ↔ InScope N n v
  serial : ∀ f6 : F → F, Fintype.card ι < 4294967296 →
    ∃ ks r, unmarshal (marshal f6 N S) = some (ks, r) ∧ ∃ h : r < ks.length, IsCopy (stored f6 N) S (netOf ks) ⟨r, h⟩

theorem routines_right (N : Net ι F) (S : ι) (hac : Acyclic N.ch) (ht : TransitivelyReduced N.ch S) (hl : LeavesAreLeaves N S) (hS : N.type S ≠ .leaf) (hall : ∀ n, Reach N.ch S n) :
    RoutinesRight N S := by
  have hso := ht.siblingOrdered
  have hS' : N.ch S ≠ [] := hl S Relation.ReflTransGen.refl hS
  have hne : ∀ n cs w, N.kind n = .sum cs w → cs ≠ [] := by
    intro n cs w hk
    have := hl n (hall n) (by unfold Net.type; rw [hk]; simp)
    unfold Net.ch at this
    rwa [hk] at this
  refine ⟨C02_transitively_reduced_partial N.ch S hac ht, fun I => C03_inference_eq_value_partial N S I hac hso hS', ?_, ?_, ?_, ?_⟩
  · intro I ops c outs hr tk htk hv
    rcases C04_storeInference_partial N S I hac hso hS' hne ops c outs hr tk htk with ⟨h, _⟩ | ⟨st', h1, h2, _⟩
    · exact absurd h hv
    · exact ⟨st', h1, fun n => h2 n (hall n)⟩
  · intro I ops c outs hr tk htk pick res st' h
    obtain ⟨h1, h2, _⟩ := (C07_storeMAP_partial N S I hac hso hS' ops c outs hr tk htk pick).2 res st' h
    exact ⟨h1, fun n => h2 n (hall n)⟩
  · intro ord raw hraw hord n
    exact (C28_scope_partial N S ord raw hac hso hl hraw hord).1 n (hall n)
  · exact fun f6 hn => C30_copy_partial f6 N S hac hso hn

end

section
variable {ι F : Type} [GoFloat F]

/-- A network, possibly one of infinitely many names of nodes, has a finite copy (same sharing, same order of children), and on every finite copy the routines work. -/
def UsableCopies (N : Net ι F) (S : ι) : Prop :=
  (∃ (n : Nat) (N' : Net (Fin n) F) (S' : Fin n), IsCopy N S N' S') ∧
  ∀ (κ : Type) [Fintype κ] [DecidableEq κ] (N' : Net κ F) (S' : κ), IsCopy N S N' S' → RoutinesRight N' S'

theorem usable_copies (N : Net ι F) (S : ι) (hac : Acyclic N.ch) (ht : TransitivelyReduced N.ch S) (hl : LeavesAreLeaves N S) (hS : N.type S ≠ .leaf) : UsableCopies N S :=
  ⟨exists_copy N S hac, fun _ _ _ N' S' h => routines_right N' S' (h.acyclic hac) (h.reduced ht) (h.leaves hl) (by rw [h.root_type]; exact hS) h.all_reachable⟩

/-- C94, any arithmetic: on a valid network of alternating sums and products all routines work. -/
theorem C94_routines (N : Net ι F) (S : ι) (h : Layered N S) (hS : N.type S ≠ .leaf) : UsableCopies N S :=
  usable_copies N S h.acyclic h.reduced h.leaves hS

/-- C94 for learn/dennis, any arithmetic: under the conditions of C77 `Structure` returns a network of alternating sums and products, on which all routines work. -/
theorem C94_dennis (E : DEnv F) (D : List VarSet) (n : Nat) (k : Int) (m g : Nat) (d : F) (hE : GoodEnv E D k) (hne : D ≠ []) (hn : 1 < n) (hc : CompleteVars n D)
    (hr : 1 < k → ∀ x ∈ D, ∀ c v, x c = some v → toInt (ofInt v : F) = v) (hm : 0 < m) (hg : 0 < g)
    (hq : g ≤ D.length → ∀ v, ∃ Q : List (List F), partitionQuantiles (extractInstance v D) (g : Int) = some Q) :
    ∃ S N, dennisStructure E D (firstVars n) k m g d = some (S, N) ∧ Layered N S ∧ (∀ v, InScope N S v ↔ 0 ≤ v ∧ v < n) ∧ UsableCopies N S := by
  obtain ⟨S, st, h1, ⟨s, i, rfl⟩, h2, h3, h4, h5, h6, _, _, h9⟩ := dennis_net E D n k m g d hE hne hn hc hr hm hg hq
  have hl : Layered st.net.normalized (.sum s i) := ⟨h2, h3, h4, h5, h9⟩
  exact ⟨_, _, h1, hl, h6, C94_routines _ _ hl (by simp [Net.type, Net.normalized, DState.net])⟩

/-- C94 for learn/poon, any arithmetic, all data: if `Structure` returns and no reachable sum lacks children, all routines work on the network. (For one image no sum lacks
children, see `C94_poon_single`; for several images one can, see `C76_refuted`.) -/
theorem C94_poon (pick : Nat → Nat → Nat) (infer : VarSet → PState F → PNode → Option (PNode → Option F)) (D : List VarSet) (w h m g r : Nat) (S : PNode) (st : PState F)
    (hrun : poonStructure pick infer D w h m g r = some (S, st)) (hl : LeavesAreLeaves (st.net w) S) (hS : (st.net w).type S ≠ .leaf) :
    Layered (st.net w) S ∧ UsableCopies (st.net w) S := by
  obtain ⟨h1, h2, h3, _, _, h6⟩ := C76_structure_partial pick infer D w h m g r S st hrun
  obtain ⟨hok, _, _⟩ := poon_regions hrun
  have hlay : Layered (st.net w) S := by
    refine ⟨h1, hl, (h6 hl).1, h2, fun n hn => ⟨?_, ?_⟩⟩
    · intro cs ws hk c hc
      have hcs : (st.net w).ch n = cs := by unfold Net.ch; rw [hk]
      rw [← hcs] at hc
      cases n with
      | gauss k i => rw [child_gauss] at hc; cases hc
      | sum k i =>
        obtain ⟨d, rfl, _⟩ := child_sum hok hc
        simp [Net.type, net_prod]
      | prod d => cases hk
    · intro cs hk
      obtain ⟨_, _, _, a, b, _, rfl, _⟩ := h3 n cs hn hk
      simp
  exact ⟨hlay, C94_routines _ _ hlay hS⟩

end

/-- C94 for learn/poon and one image, exact arithmetic: under the conditions of C76 `Structure` returns a network on which all routines work. -/
theorem C94_poon_single (pick : Nat → Nat → Nat) (hpick : GoodPick pick) (infer : VarSet → PState XR → PNode → Option (PNode → Option XR)) (I : VarSet) (w h m g r : Nat)
    (hr : 2 ≤ r) (hw : r ∣ w) (hh : r ∣ h) (hw0 : 0 < w) (hh0 : 0 < h) (hwh : w ≠ r ∨ h ≠ r) (hm : 0 < m) (hg : 2 ≤ g) :
    ∃ S st, poonStructure pick infer [I] w h m g r = some (S, st) ∧ Layered (st.net w) S ∧ UsableCopies (st.net w) S := by
  obtain ⟨S, st, h1, h2, h3, _⟩ := C76_single_partial pick hpick infer I w h m g r hr hw hh hw0 hh0 hwh hm hg
  exact ⟨S, st, h1, C94_poon pick infer [I] w h m g r S st h1 h3 (by rw [h2]; simp)⟩

section
variable {ι : Type} [Fintype ι] [DecidableEq ι]

theorem univariate_scopes {N : Net ι XR} {g : Int} {v : Variable} {D : List VarSet} {u : ι} {cats : Int → Int} (hcat : v.categories = cats v.varid) (hpos : 0 < cats v.varid)
    (h : IsUnivariate N g v D u) : ∀ n, Reach N.ch u n → ∃ x, InScope N n x := by
  intro n hn
  rcases Relation.ReflTransGen.cases_head hn with rfl | ⟨c, hc, hcn⟩
  · exact ⟨v.varid, ((univariate_good hcat hpos h).1 _).2 rfl⟩
  · unfold IsUnivariate at h
    split at h
    · obtain ⟨_, _, l, _, _, _, hu⟩ := h
      rw [ch_of_leaf hu] at hc
      cases hc
    · obtain ⟨Q, cs, _, hlen, hu, hcs⟩ := h
      have hch : N.ch u = cs := by unfold Net.ch; rw [hu]
      rw [hch] at hc
      obtain ⟨i, hi, hget⟩ := List.mem_iff_getElem.1 hc
      obtain ⟨mu, sigma, _, _, hk⟩ := hcs i (Q[i]'(by omega)) c (by simp) (by rw [List.getElem?_eq_getElem hi, hget])
      rcases Relation.ReflTransGen.cases_head hcn with rfl | ⟨e, he, _⟩
      · exact ⟨_, c, _, Relation.ReflTransGen.refl, hk, rfl⟩
      · rw [ch_of_leaf hk] at he
        cases he

/-- Every node of a learned network has a variable, if the scope has one. -/
theorem learned_scopes {N : Net ι XR} {g k : Int} {eps : XR} {mp : Int} {Sc : VarScope} {D : List VarSet} {u : ι} (h : Learned N g k eps mp Sc D u) (cats : Int → Int) :
    ScopeOk cats Sc → (∃ v, (Sc v).isSome) → ∀ n, Reach N.ch u n → ∃ x, InScope N n x := by
  have root : ∀ {Sc : VarScope} {D : List VarSet} {u : ι}, Learned N g k eps mp Sc D u → ScopeOk cats Sc → (∃ v, (Sc v).isSome) → ∃ x, InScope N u x :=
    fun h hok ⟨v, hv⟩ => ⟨v, ((learned_good h cats hok).1 v).2 hv⟩
  induction h with
  | @leaf Sc D u key v hord hv hun =>
    intro hok _
    obtain ⟨h1, h2, h3⟩ := hok key v hv
    exact univariate_scopes (cats := cats) (by rw [h1]; exact h2) (by rw [h1]; exact h3) hun
  | @product Sc D u keys K scs cs ds hord hn hK hK1 hlen hsub hrec hu hp ih =>
    intro hok hne n hn'
    rcases Relation.ReflTransGen.cases_head hn' with rfl | ⟨c, hc, hcn⟩
    · exact root (.product keys K scs cs ds hord hn hK hK1 hlen hsub hrec hu hp) hok hne
    · have hch : N.ch u = ds := by unfold Net.ch; rw [hu]
      rw [hch, hp.mem_iff] at hc
      obtain ⟨i, hi, hget⟩ := List.mem_iff_getElem.1 hc
      obtain ⟨_, _, _, hemp⟩ := indepSets_spec hok hK
      have hs : K[i]? = some (K[i]'(by omega)) := by simp
      obtain ⟨hd1, hd2⟩ := subScope_spec (hsub i _ hs)
      have hoki : ScopeOk cats (scs i) := by
        intro x v hx
        rw [hd2] at hx
        split at hx
        · obtain ⟨w, hw, rfl⟩ := Option.map_eq_some_iff.1 hx
          exact ⟨rfl, (hok x w hw).2⟩
        · cases hx
      refine ih i _ c hs (by rw [List.getElem?_eq_getElem hi, hget]) hoki ?_ n hcn
      have : K[i]'(by omega) ≠ [] := by
        intro h0
        exact hemp (h0 ▸ List.getElem_mem _)
      obtain ⟨v, hv⟩ := List.exists_mem_of_ne_nil _ this
      refine ⟨v, ?_⟩
      rw [hd2, if_pos hv]
      have := hd1 v hv
      simpa using this
  | @factorized Sc D u keys K hord hn hK hK1 hc hf =>
    intro hok hne n hn'
    rcases Relation.ReflTransGen.cases_head hn' with rfl | ⟨c, hc', hcn⟩
    · exact root (.factorized keys K hord hn hK hK1 hc hf) hok hne
    · obtain ⟨ks, cs, ho, hlen, hu, hcs⟩ := hf
      have hch : N.ch u = cs := by unfold Net.ch; rw [hu]
      rw [hch] at hc'
      obtain ⟨i, hi, hget⟩ := List.mem_iff_getElem.1 hc'
      obtain ⟨v, hv, hun⟩ := hcs i (ks[i]'(by omega)) c (by simp) (by rw [List.getElem?_eq_getElem hi, hget])
      obtain ⟨h1, h2, h3⟩ := hok _ v hv
      exact univariate_scopes (cats := cats) (by rw [h1]; exact h2) (by rw [h1]; exact h3) hun n hcn
  | @sum Sc D u keys K C orders cs ps hord hn hK hK1 hC hC1 hlen hords hrec hp hu ih =>
    intro hok hne n hn'
    rcases Relation.ReflTransGen.cases_head hn' with rfl | ⟨c, hc, hcn⟩
    · exact root (.sum keys K C orders cs ps hord hn hK hK1 hC hC1 hlen hords hrec hp hu) hok hne
    · have hfst : (ps.map Prod.fst).Perm cs := by
        have := hp.map Prod.fst
        rwa [List.map_fst_zip (by simp [hlen])] at this
      have hch : N.ch u = ps.map Prod.fst := by unfold Net.ch; rw [hu]
      rw [hch, hfst.mem_iff] at hc
      obtain ⟨i, hi, hget⟩ := List.mem_iff_getElem.1 hc
      have := ih i (C[i]'(by omega)) c (by simp) (by rw [List.getElem?_eq_getElem hi, hget])
      rw [reflectScope_eq (hords i)] at this
      exact this hok hne n hcn

/-- C94 for learn/gens, exact arithmetic: a network learned for a scope with at least one variable, each node of which was made once and added to one parent (`TreeBelow`), has
children at all sums and products, and all routines work on it if its root is not a leaf. -/
theorem C94_gens {N : Net ι XR} {g k : Int} {eps : XR} {mp : Int} {Sc : VarScope} {D : List VarSet} {u : ι} (h : Learned N g k eps mp Sc D u)
    (cats : Int → Int) (hok : ScopeOk cats Sc) (hne : ∃ v, (Sc v).isSome) (hac : Acyclic N.ch) (ht : TreeBelow N.ch u) :
    LeavesAreLeaves N u ∧ (N.type u ≠ .leaf → UsableCopies N u) := by
  have hl : LeavesAreLeaves N u := by
    intro n hn hty hch
    obtain ⟨x, m, l, hr, hk, _⟩ := learned_scopes h cats hok hne n hn
    rcases Relation.ReflTransGen.cases_head hr with rfl | ⟨c, hc, _⟩
    · exact hty (by unfold Net.type; rw [hk])
    · rw [hch] at hc
      cases hc
  exact ⟨hl, fun hty => usable_copies N u hac (ht.reduced hac) hl hty⟩

end

/-! ### The hypotheses can be met -/

theorem mixNet_layered : Layered mixNet 0 := by
  refine ⟨mixNet_acyclic, ?_, mixNet_complete, mixNet_decomposable, ?_⟩
  · intro n _ ht
    fin_cases n <;> simp [mixNet, Net.type, Net.ch] at ht ⊢
  · intro n _
    fin_cases n <;> simp [mixNet, Net.type]

example : Layered mixNet 0 ∧ mixNet.type 0 ≠ .leaf := ⟨mixNet_layered, by simp [Net.type, mixNet]⟩

example : Acyclic mixNet.ch ∧ TreeBelow mixNet.ch 0 := by
  refine ⟨mixNet_acyclic, tree_of_parent 0 ![0, 0, 0, 1, 1, 2, 2] fun u c hc => ?_⟩
  fin_cases u <;> simp [mixNet, Net.ch] at hc <;> (try rcases hc with rfl | rfl) <;> rfl

example : ∃ S N, dennisStructure exampleEnv threeTwo (firstVars 2) 2 3 2 (.fin 0 : XR) = some (S, N) ∧ UsableCopies N S := by
  obtain ⟨S, N, h1, _, _, h2⟩ := C94_dennis exampleEnv threeTwo 2 2 3 2 (.fin 0) (exampleEnv_good 2 (by omega)) (by simp [threeTwo]) (by omega) threeTwo_complete
    (fun _ x _ c v _ => toInt_int v) (by omega) (by omega) (fun _ v => ⟨_, partitionQuantiles_eq _ 2 (by omega)⟩)
  exact ⟨S, N, h1, h2⟩

example (infer : VarSet → PState XR → PNode → Option (PNode → Option XR)) (I : VarSet) :
    ∃ S st, poonStructure (fun _ n => n - 1) infer [I] 6 4 20 4 2 = some (S, st) ∧ LeavesAreLeaves (st.net 6) S ∧ (st.net 6).type S ≠ .leaf := by
  obtain ⟨S, st, h, h1, h2, _⟩ := C76_single_partial (fun _ n => n - 1) (fun t n hn => Nat.sub_lt hn one_pos) infer I 6 4 20 4 2 le_rfl (by norm_num) (by norm_num) (by norm_num)
    (by norm_num) (by norm_num) (by norm_num) (by norm_num)
  exact ⟨S, st, h, h2, by rw [h1]; simp⟩

example : ∃ N : Net (Fin 7) XR, Learned N 0 2 (.fin 0) 1 GensExample.scope [GensExample.d0, GensExample.d1] 0 ∧ ScopeOk (fun _ => 2) GensExample.scope ∧
    (∃ v, (GensExample.scope v).isSome) ∧ Acyclic N.ch ∧ TreeBelow N.ch 0 ∧ N.type 0 ≠ .leaf := by
  obtain ⟨N, h1, h2, h3, h4, h5⟩ := GensExample.learned (.fin 0) 1
  exact ⟨N, h1, h3, ⟨0, by simp [GensExample.scope]⟩, h2, h4, h5⟩

end Gospn
