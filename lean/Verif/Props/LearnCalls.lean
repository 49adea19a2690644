/-
C135: structure learning ends.
-/
import Verif.Model.LearnCalls
import Verif.Spec.LearnCalls
import Verif.Props.Gens
import Verif.Proofs.GensLeaves

set_option linter.unusedSectionVars false
set_option linter.unusedSimpArgs false

namespace Gospn
open GoFloat Spec
variable {F : Type} [GoFloat F]

theorem subScope_order {Sc Sc' : VarScope} {s : List Int} (h : subScope Sc s = some Sc') (hs : s.Nodup) : Sc'.Order s := by
  obtain ⟨h1, h2⟩ := subScope_spec h
  refine ⟨hs, fun k => ?_⟩
  rw [h2]
  by_cases hk : k ∈ s
  · simp [hk, h1 k hk]
  · simp [hk]

theorem subScope_ok {cats : Int → Int} {Sc Sc' : VarScope} {s : List Int} (h : subScope Sc s = some Sc') (hok : ScopeOk cats Sc) : ScopeOk cats Sc' := by
  obtain ⟨_, h2⟩ := subScope_spec h
  intro x v hx
  rw [h2] at hx
  split at hx
  · obtain ⟨w, hw, rfl⟩ := Option.map_eq_some_iff.1 hx
    exact ⟨rfl, (hok x w hw).2⟩
  · cases hx

/-- One of several non-empty lists is shorter than all together. -/
theorem part_lt {α : Type} {K : List (List α)} (hne : [] ∉ K) (hK : K.length ≠ 1) {s : List α} (hs : s ∈ K) : s.length < K.flatten.length := by
  obtain ⟨A, B, rfl⟩ := List.append_of_mem hs
  simp only [List.flatten_append, List.flatten_cons, List.length_append]
  cases A with
  | cons a A =>
    have ha : a ≠ [] := fun e => hne (by simp [e])
    have := List.length_pos_iff.2 ha
    simp only [List.flatten_cons, List.length_append]
    omega
  | nil =>
    cases B with
    | nil => simp at hK
    | cons b B =>
      have hb : b ≠ [] := fun e => hne (by simp [e])
      have := List.length_pos_iff.2 hb
      simp only [List.flatten_cons, List.length_append]
      omega

theorem part_le {α : Type} {C : List (List α)} {d : List α} (hd : d ∈ C) : d.length ≤ (C.map List.length).sum := by
  obtain ⟨A, B, rfl⟩ := List.append_of_mem hd
  simp only [List.map_append, List.map_cons, List.sum_append, List.sum_cons]
  omega

theorem order_length {Sc : VarScope} {a b : List Int} (ha : Sc.Order a) (hb : Sc.Order b) : a.length = b.length := by
  apply le_antisymm
  · exact (ha.1.subperm fun x hx => (hb.2 x).2 ((ha.2 x).1 hx)).length_le
  · exact (hb.1.subperm fun x hx => (ha.2 x).2 ((hb.2 x).1 hx)).length_le

/-- A call goes on with fewer variables and as many instances, or with the same variables and at most as many instances. -/
theorem calls_step {cats : Int → Int} {k : Int} {eps : F} {mp : Int} {Sc Sc' : VarScope} {D D' : List VarSet} (h : LearnCalls k eps mp (Sc, D) (Sc', D'))
    (hok : ScopeOk cats Sc) {keys : List Int} (ho : Sc.Order keys) :
    ScopeOk cats Sc' ∧ ∃ keys', Sc'.Order keys' ∧ ((keys'.length < keys.length ∧ D'.length = D.length) ∨ (Sc' = Sc ∧ keys'.length = keys.length ∧ D'.length ≤ D.length)) := by
  cases h with
  | indep keys0 K s ho0 hn hK hK1 hs hsub =>
    obtain ⟨keys1, ho1, hp, hne⟩ := indepSets_spec hok hK
    have hnd : s.Nodup := (List.nodup_flatten.1 (hp.nodup_iff.2 ho1.1)).1 s hs
    refine ⟨subScope_ok hsub hok, s, subScope_order hsub hnd, Or.inl ⟨?_, length_sub _ _⟩⟩
    rw [order_length ho ho1, ← hp.length_eq]
    exact part_lt hne (by omega) hs
  | cluster keys0 K C d order ho0 hn hK hK1 hC hC1 hd hor =>
    rw [reflectScope_eq hor]
    refine ⟨hok, keys, ho, Or.inr ⟨rfl, rfl, ?_⟩⟩
    rw [← (clustered_lengths hC).2]
    exact part_le hd

/-- A call made with the scope of the call that makes it and with as many instances. -/
def SameSize (a b : VarScope × List VarSet) : Prop := b.1 = a.1 ∧ b.2.length = a.2.length

noncomputable instance : DecidableRel SameSize := fun _ _ => Classical.dec _

theorem depth_aux {cats : Int → Int} {k : Int} {eps : F} {mp : Int} (n : Nat) : ∀ (f : Nat → VarScope × List VarSet) (keys : List Int), ScopeOk cats (f 0).1 → (f 0).1.Order keys →
    NestedCalls (LearnCalls k eps mp) f n → n ≤ keys.length + (f 0).2.length + repeats SameSize f n := by
  induction n with
  | zero => intros; omega
  | succ n ih =>
    intro f keys hok ho hf
    obtain ⟨hok1, keys1, ho1, hc⟩ := calls_step (Sc := (f 0).1) (D := (f 0).2) (Sc' := (f 1).1) (D' := (f 1).2) (hf 0 (by omega)) hok ho
    have := ih (fun i => f (i + 1)) keys1 hok1 ho1 (fun i hi => hf (i + 1) (by omega))
    simp only [zero_add] at this
    have hr : repeats SameSize f (n + 1) = repeats SameSize (fun i => f (i + 1)) n + if SameSize (f 0) (f 1) then 1 else 0 := by
      unfold repeats
      simp only [Finset.card_filter]
      rw [Finset.sum_range_succ']
    rw [hr]
    rcases hc with ⟨h1, h2⟩ | ⟨h1, h2, h3⟩
    · omega
    · by_cases h4 : (f 1).2.length = (f 0).2.length
      · rw [if_pos ⟨h1, h4⟩]; omega
      · omega

/-- C135 for both ways of clustering: calls are nested at most as deep as there are variables and instances, not counting the calls for a cluster that got
all instances. -/
theorem C135_depth_partial {cats : Int → Int} {k : Int} {eps : F} {mp : Int} {Sc : VarScope} {D : List VarSet} {keys : List Int} (hok : ScopeOk cats Sc) (ho : Sc.Order keys)
    {f : Nat → VarScope × List VarSet} {n : Nat} (h0 : f 0 = (Sc, D)) (hf : NestedCalls (LearnCalls k eps mp) f n) :
    n ≤ keys.length + D.length + repeats SameSize f n := by
  have := depth_aux n f keys (by rw [h0]; exact hok) (by rw [h0]; exact ho) hf
  rw [h0] at this
  exact this

/-- The values of the instances survive the conversion to `float64` and back (learn/variable.go: `DataMatrix`), and so does 0. -/
def ExactData (F : Type) [GoFloat F] (D : List VarSet) : Prop := (toInt (ofInt 0 : F) = 0) ∧ ∀ x ∈ D, ∀ c v, x c = some v → toInt (ofInt v : F) = v

/-- With DBSCAN no cluster has all instances, and the data stay as they have to be. -/
theorem dbscan_step {k : Int} (hk : k ≤ 0) {eps : F} {mp : Int} {Sc Sc' : VarScope} {D D' : List VarSet} (h : LearnCalls k eps mp (Sc, D) (Sc', D'))
    (hs : SameVars D) (hx : ExactData F D) {cats : Int → Int} (hok : ScopeOk cats Sc) : SameVars D' ∧ ExactData F D' ∧ ¬ SameSize (Sc, D) (Sc', D') := by
  cases h with
  | indep keys0 K s ho0 hn hK hK1 hs0 hsub =>
    refine ⟨sameVars_sub _ _, ⟨hx.1, ?_⟩, ?_⟩
    · intro x hxx c v hv
      obtain ⟨I, hI, rfl⟩ := List.mem_map.1 hxx
      rw [subInstance] at hv
      split at hv
      · cases hv
        unfold VarSet.get
        cases hc : I c with
        | none => exact hx.1
        | some w => exact hx.2 I hI c w hc
      · cases hv
    · rintro ⟨h1, _⟩
      obtain ⟨keys1, ho1, hp, hne⟩ := indepSets_spec hok hK
      have hnd : s.Nodup := (List.nodup_flatten.1 (hp.nodup_iff.2 ho1.1)).1 s hs0
      have hos := subScope_order hsub hnd
      dsimp only at h1
      rw [h1] at hos
      have h2 := order_length hos ho1
      have h3 := part_lt hne (by omega) hs0
      rw [hp.length_eq] at h3
      omega
  | cluster keys0 K C d order ho0 hn hK hK1 hC hC1 hd hor =>
    obtain ⟨hpos, _⟩ := clustered_lengths hC
    have hne : D ≠ [] := by rintro rfl; simp at hpos
    obtain ⟨ord, ho, h⟩ := hC
    rw [if_neg (by omega)] at h
    obtain ⟨_, _, _, _, _, _, hp, hnil, _⟩ := C38_returned_partial hne ho hs hx.2 eps mp h
    refine ⟨sameVars_cluster hp hs hd, ⟨hx.1, fun x hxx => hx.2 x (hp.mem_iff.1 (List.mem_flatten.2 ⟨_, hd, hxx⟩))⟩, ?_⟩
    rintro ⟨_, h2⟩
    have := part_lt hnil hC1 hd
    rw [hp.length_eq] at this
    dsimp only at h2
    omega

/-- C135 for DBSCAN (`kclusters <= 0`): calls are nested at most as deep as there are variables and instances, whatever the tests say. -/
theorem C135_dbscan {cats : Int → Int} {k : Int} (hk : k ≤ 0) {eps : F} {mp : Int} {Sc : VarScope} {D : List VarSet} {keys : List Int} (hok : ScopeOk cats Sc) (ho : Sc.Order keys)
    (hs : SameVars D) (hx : ExactData F D) {f : Nat → VarScope × List VarSet} {n : Nat} (h0 : f 0 = (Sc, D)) (hf : NestedCalls (LearnCalls k eps mp) f n) :
    n ≤ keys.length + D.length := by
  have hall : ∀ i ≤ n, SameVars (f i).2 ∧ ExactData F (f i).2 ∧ ScopeOk cats (f i).1 ∧ ∃ keys, (f i).1.Order keys := by
    intro i
    induction i with
    | zero => intro _; rw [h0]; exact ⟨hs, hx, hok, keys, ho⟩
    | succ i ih =>
      intro hi
      obtain ⟨h1, h2, h3, keys', h4⟩ := ih (by omega)
      have hc := hf i (by omega)
      obtain ⟨g1, g2, _⟩ := dbscan_step (Sc := (f i).1) (D := (f i).2) (Sc' := (f (i + 1)).1) (D' := (f (i + 1)).2) hk hc h1 h2 h3
      obtain ⟨g3, keys1, g4, _⟩ := calls_step (Sc := (f i).1) (D := (f i).2) (Sc' := (f (i + 1)).1) (D' := (f (i + 1)).2) hc h3 h4
      exact ⟨g1, g2, g3, keys1, g4⟩
  have hr : repeats SameSize f n = 0 := by
    unfold repeats
    rw [Finset.card_eq_zero, Finset.filter_eq_empty_iff]
    intro i hi
    rw [Finset.mem_range] at hi
    obtain ⟨h1, h2, h3, _⟩ := hall i (by omega)
    exact (dbscan_step (Sc := (f i).1) (D := (f i).2) (Sc' := (f (i + 1)).1) (D' := (f (i + 1)).2) hk (hf i hi) h1 h2 h3).2.2
  have := C135_depth_partial hok ho h0 hf
  omega

/-- C135 for DBSCAN: no nested calls without end. -/
theorem C135_dbscan_ends {cats : Int → Int} {k : Int} (hk : k ≤ 0) {eps : F} {mp : Int} {Sc : VarScope} {D : List VarSet} {keys : List Int} (hok : ScopeOk cats Sc) (ho : Sc.Order keys)
    (hs : SameVars D) (hx : ExactData F D) : ¬ EndlessCalls (LearnCalls k eps mp) (Sc, D) := by
  rintro ⟨f, h0, hf⟩
  have := C135_dbscan hk hok ho hs hx h0 (hf (keys.length + D.length + 1))
  omega

/-- C135 for k-means (`kclusters > 1`) fails if the library may put all rows into one of the clusters: whatever the instances are, as long as the variables are
found dependent, the call then calls itself with the same arguments, without end. -/
theorem C135_endless {k : Nat} (hk : 1 < k) {eps : F} {mp : Int} {Sc : VarScope} {D : List VarSet} {keys : List Int} {K : List (List Int)} (ho : Sc.Order keys) (hkeys : keys.length ≠ 1)
    (hK : IndepSets Sc D K) (hK1 : ¬ 1 < K.length) (hD : k ≤ D.length) (hs : SameVars D) (hx : ExactData F D) {ord : MapOrder} (hord : OrdersOf ord D) :
    EndlessCalls (LearnCalls (k : Int) eps mp) (Sc, D) := by
  have hne : D ≠ [] := by rintro rfl; simp at hD; omega
  obtain ⟨M, S, C, h1, h2, h3, h4, _⟩ := C39_groups (F := F) (k := k) (G := List.replicate D.length 0) hne hord hs hx.2 (by simp)
    (by intro g hg; rw [List.eq_of_mem_replicate hg]; omega)
  have hM := (dataToMatrix_length h1).1
  have hcl : Clustered (k : Int) eps mp D C := by
    refine ⟨ord, hord, ?_⟩
    rw [if_pos (by omega)]
    refine ⟨by exact_mod_cast hD, fun _ M => some (List.replicate M.length 0), ?_, ?_⟩
    · intro M G h
      cases h
      simp
    · unfold kMeansDataI
      rw [h1]
      simp only [Option.bind_some]
      rw [hM]
      exact h2
  have hmem : D ∈ C := by
    have h := h4 0 (by omega)
    have e : ((D.zip (List.replicate D.length (0 : Int))).filter fun x => x.2 = ((0 : Nat) : Int)).map Prod.fst = D := by
      rw [List.filter_eq_self.2]
      · rw [List.map_fst_zip]; simp
      · rintro ⟨x, y⟩ hxy
        have := (List.of_mem_zip hxy).2
        simpa using List.eq_of_mem_replicate this
    rw [e] at h
    exact List.mem_of_getElem? h
  refine ⟨fun _ => (Sc, D), rfl, fun n i _ => ?_⟩
  have := LearnCalls.cluster (eps := eps) (mp := mp) keys K C D keys ho hkeys hK hK1 hcl (by omega) hmem ho
  rw [reflectScope_eq ho] at this
  exact this

/-- A scope of one variable ends the recursion: no further call is made. -/
theorem C135_one_variable {k : Int} {eps : F} {mp : Int} {Sc : VarScope} {D : List VarSet} {x : Int} (ho : Sc.Order [x]) : ¬ ∃ b, LearnCalls k eps mp (Sc, D) b := by
  rintro ⟨b, h⟩
  cases h with
  | indep keys0 K s ho0 hn hK hK1 hs hsub => exact hn (order_length ho0 ho)
  | cluster keys0 K C d order ho0 hn hK hK1 hC hC1 hd hor => exact hn (order_length ho0 ho)

/-- The claim that learning always ends fails in the model, which leaves the assignment to the k-means library open. -/
theorem C135_refuted : ¬ ∀ (cats : Int → Int) (k : Int) (eps : XR) (mp : Int) (Sc : VarScope) (D : List VarSet) (keys : List Int), ScopeOk cats Sc → Sc.Order keys → SameVars D →
    ExactData XR D → ¬ EndlessCalls (LearnCalls k eps mp) (Sc, D) := by
  intro h
  have hs : SameVars [GensExample.d0, GensExample.d1] := by
    intro x hx y hy k
    simp only [List.mem_cons, List.not_mem_nil, or_false] at hx hy
    rcases hx with rfl | rfl <;> rcases hy with rfl | rfl <;> by_cases h0 : k = 0 <;> by_cases h1 : k = 1 <;> simp [GensExample.d0, GensExample.d1, VarSet.set, VarSet.empty, h0, h1]
  have ho : OrdersOf (fun _ _ => [0, 1]) [GensExample.d0, GensExample.d1] := by
    intro t x hx
    refine ⟨by simp, fun k => ?_⟩
    simp only [List.mem_cons, List.not_mem_nil, or_false] at hx
    rcases hx with rfl | rfl <;> by_cases h0 : k = 0 <;> by_cases h1 : k = 1 <;> simp [GensExample.d0, GensExample.d1, VarSet.set, VarSet.empty, h0, h1]
  have hok : ScopeOk (fun _ => 2) GensExample.scope := by
    intro k v hv
    unfold GensExample.scope at hv
    split at hv
    · cases hv; subst_vars; exact ⟨rfl, rfl, by decide⟩
    · split at hv
      · cases hv; subst_vars; exact ⟨rfl, rfl, by decide⟩
      · cases hv
  have hx : ExactData XR [GensExample.d0, GensExample.d1] := ⟨by simp [XR.toInt], by intro x _ c v _; simp [XR.toInt]⟩
  exact h (fun _ => 2) 2 (.fin 0) 1 GensExample.scope [GensExample.d0, GensExample.d1] [0, 1] hok GensExample.scope_order hs hx
    (C135_endless (k := 2) (by omega) GensExample.scope_order (by simp) (GensExample.sets _) (by simp) (by simp) hs hx ho)

/-- A call that goes on with a smaller scope, with the parameters of DBSCAN. -/
example : ∃ Sc', LearnCalls (0 : Int) (.fin 1 : XR) 2 (GensExample.scope, [GensExample.d0, GensExample.d1]) (Sc', subData [GensExample.d0, GensExample.d1] [1]) := by
  refine ⟨fun k => if k = 1 then some ⟨1, 2⟩ else none, .indep [0, 1] [[0], [1]] [1] GensExample.scope_order (by simp) ?_ (by simp) (by simp) ?_⟩
  · exact ⟨[0, 1], [(⟨0, 2⟩, [GensExample.d0, GensExample.d1].map fun I => I.get 0), (⟨1, 2⟩, [GensExample.d0, GensExample.d1].map fun I => I.get 1)], fun _ _ => true, GensExample.scope_order, rfl,
      show newUFIndepGraph [0, 1] (fun _ _ => true) = some [[0], [1]] by decide⟩
  · rfl

/-- A call that goes on with a smaller cluster. -/
example : LearnCalls (2 : Int) (.fin 1 : XR) 2 (GensExample.scope, [GensExample.d0, GensExample.d1]) (GensExample.scope, [GensExample.d0]) := by
  have := LearnCalls.cluster (k := 2) (eps := (.fin 1 : XR)) (mp := 2) [0, 1] [[1, 0]] [[GensExample.d0], [GensExample.d1]] [GensExample.d0] [0, 1] GensExample.scope_order (by simp)
    (GensExample.sets _) (by simp) (GensExample.clusters _ _) (by simp) (by simp) GensExample.scope_order
  rw [reflectScope_eq GensExample.scope_order] at this
  exact this

end Gospn
