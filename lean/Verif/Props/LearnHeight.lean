/-
C137: learned networks have no cycles and few levels.
-/
import Verif.Props.LearnSize

set_option linter.unusedSectionVars false
set_option linter.unusedSimpArgs false

namespace Gospn
open GoFloat Spec
variable {ι F : Type} [GoFloat F]

theorem height_leaf {ch : ι → List ι} {u : ι} (h : ch u = []) (b : Nat) : HeightAtMost ch u b := by
  intro f n h0 hf
  cases n with
  | zero => omega
  | succ n =>
    have := hf 0 (by omega)
    rw [h0, h] at this
    cases this

theorem height_parent {ch : ι → List ι} {u : ι} {b : Nat} (h : ∀ c ∈ ch u, HeightAtMost ch c b) : HeightAtMost ch u (b + 1) := by
  intro f n h0 hf
  cases n with
  | zero => omega
  | succ n =>
    have h1 := hf 0 (by omega)
    rw [h0] at h1
    have := h _ h1 (fun i => f (i + 1)) n rfl (fun i hi => hf (i + 1) (by omega))
    omega

theorem height_mono {ch : ι → List ι} {u : ι} {a b : Nat} (h : HeightAtMost ch u a) (hab : a ≤ b) : HeightAtMost ch u b :=
  fun f n h0 hf => (h f n h0 hf).trans hab

/-- The height of a univariate distribution: a leaf, or a sum of leaves. -/
def univariateHeight (g : Int) : Nat := if g ≤ 0 then 0 else 1

/-- A univariate distribution is a leaf or a sum of leaves. -/
theorem univariate_children {N : Net ι F} {g : Int} {v : Variable} {D : List VarSet} {u : ι} (h : IsUnivariate N g v D u) :
    (g ≤ 0 → N.ch u = []) ∧ ∀ c ∈ N.ch u, N.ch c = [] := by
  unfold IsUnivariate at h
  split at h
  · obtain ⟨_, _, l, _, _, _, hk⟩ := h
    simp [Net.ch, hk]
  · rename_i hg
    refine ⟨fun h => absurd h hg, ?_⟩
    obtain ⟨Q, cs, _, hlen, hk, hc⟩ := h
    intro c hcc
    have hcc : c ∈ cs := by simpa [Net.ch, hk] using hcc
    obtain ⟨i, hi⟩ := List.getElem?_of_mem hcc
    have hlt : i < Q.length := by rw [← hlen]; exact (List.getElem?_eq_some_iff.1 hi).1
    obtain ⟨_, _, _, _, hl⟩ := hc i _ c (List.getElem?_eq_getElem hlt) hi
    simp [Net.ch, hl]

theorem univariate_height {N : Net ι F} {g : Int} {v : Variable} {D : List VarSet} {u : ι} (h : IsUnivariate N g v D u) : HeightAtMost N.ch u (univariateHeight g) := by
  obtain ⟨h1, h2⟩ := univariate_children h
  unfold univariateHeight
  split
  · rename_i hg; exact height_leaf (h1 hg) _
  · exact height_parent fun c hc => height_leaf (h2 c hc) _

/-- The parent of a list of children, each of which belongs to an entry of another list. -/
theorem child_index {α : Type} {K : List α} {cs : List ι} (hlen : cs.length = K.length) {c : ι} (hc : c ∈ cs) : ∃ (i : Nat) (s : α), K[i]? = some s ∧ cs[i]? = some c := by
  obtain ⟨i, hi⟩ := List.getElem?_of_mem hc
  have hlt : i < K.length := by rw [← hlen]; exact (List.getElem?_eq_some_iff.1 hi).1
  exact ⟨i, _, List.getElem?_eq_getElem hlt, hi⟩

theorem sum_children {α : Type} {cs : List ι} {W : List α} {ps : List (ι × α)} (hp : ps.Perm (cs.zip W)) {c : ι} (hc : c ∈ ps.map Prod.fst) : c ∈ cs := by
  obtain ⟨p, hpp, rfl⟩ := List.mem_map.1 hc
  exact (List.of_mem_zip (hp.mem_iff.1 hpp)).1

/-- The links of a learned network can be followed finitely often. -/
theorem learned_acc {N : Net ι F} {g k : Int} {eps : F} {mp : Int} {Sc : VarScope} {D : List VarSet} {u : ι} (h : Learned N g k eps mp Sc D u) : Acc (fun c p => c ∈ N.ch p) u := by
  have uni : ∀ {v : Variable} {D : List VarSet} {u : ι}, IsUnivariate N g v D u → Acc (fun c p => c ∈ N.ch p) u := by
    intro v D u h
    refine ⟨_, fun c hc => ⟨_, fun x hx => ?_⟩⟩
    rw [(univariate_children h).2 c hc] at hx
    cases hx
  induction h with
  | @leaf Sc D u key v ho _ hu => exact uni hu
  | @product Sc D u keys0 K scs cs ds ho hn hK hK1 hlen hsub hl hu hp ih =>
    refine ⟨_, fun c hc => ?_⟩
    have hc : c ∈ ds := by simpa [Net.ch, hu] using hc
    obtain ⟨i, s, h1, h2⟩ := child_index hlen (hp.mem_iff.1 hc)
    exact ih i s c h1 h2
  | @factorized Sc D u keys0 K ho hn hK hK1 hc hf =>
    obtain ⟨ks, cs, ho2, hlen, hu, hcs⟩ := hf
    refine ⟨_, fun c hc => ?_⟩
    have hc : c ∈ cs := by simpa [Net.ch, hu] using hc
    obtain ⟨i, s, h1, h2⟩ := child_index hlen hc
    obtain ⟨v, _, hv⟩ := hcs i s c h1 h2
    exact uni hv
  | @sum Sc D u keys0 K C orders cs ps ho hn hK hK1 hC hC1 hlen hor hl hp hu ih =>
    refine ⟨_, fun c hc => ?_⟩
    have hc : c ∈ ps.map Prod.fst := by simpa [Net.ch, hu] using hc
    obtain ⟨i, s, h1, h2⟩ := child_index hlen (sum_children hp hc)
    exact ih i s c h1 h2

theorem acc_noCycle {ch : ι → List ι} {u : ι} (h : Acc (fun c p => c ∈ ch p) u) : NoCycleBelow ch u := by
  have down : ∀ v, Reach ch u v → Acc (fun c p => c ∈ ch p) v := by
    intro v hv
    induction hv with
    | refl => exact h
    | tail _ hc ih => exact ih.inv hc
  intro v hv
  have hacc := down v hv
  clear hv h down
  induction hacc with
  | intro v _ ih =>
    intro c hc hcv
    -- the cycle through `v` is a cycle through `c`
    rcases Relation.ReflTransGen.cases_head hcv with rfl | ⟨d, hd, hdv⟩
    · exact ih c hc c hc Relation.ReflTransGen.refl
    · exact ih c hc d hd (Relation.ReflTransGen.tail hdv hc)

/-- C137: a learned network has no cycle, whatever tests and clustering decided. -/
theorem C137_no_cycle {N : Net ι F} {g k : Int} {eps : F} {mp : Int} {Sc : VarScope} {D : List VarSet} {u : ι} (h : Learned N g k eps mp Sc D u) : NoCycleBelow N.ch u :=
  acc_noCycle (learned_acc h)

/-- C137, in the form that the other theorems ask for: a learned network is acyclic, if `N` has no other nodes than those of the network (the condition `Acyclic`
of C120, C122 and C138 then holds by itself). -/
theorem C137_acyclic {N : Net ι F} {g k : Int} {eps : F} {mp : Int} {Sc : VarScope} {D : List VarSet} {u : ι} (h : Learned N g k eps mp Sc D u) (hall : ∀ n, Reach N.ch u n) : Acyclic N.ch := by
  have hacc : ∀ v, Acc (fun c p => c ∈ N.ch p) v := by
    intro v
    have hv := hall v
    clear hall
    induction hv with
    | refl => exact learned_acc h
    | tail _ hc ih => exact ih.inv hc
  have hwf : WellFounded (fun c p => c ∈ N.ch p) := ⟨hacc⟩
  let rank : ι → Nat := hwf.fix fun v r => ((N.ch v).attach.map fun c => r c.1 c.2 + 1).sum
  refine ⟨rank, fun v c hc => ?_⟩
  have e : rank v = ((N.ch v).attach.map fun c => rank c.1 + 1).sum := hwf.fix_eq _ v
  have hmem : rank c + 1 ∈ ((N.ch v).attach.map fun c => rank c.1 + 1) := List.mem_map.2 ⟨⟨c, hc⟩, by simp, rfl⟩
  have := List.single_le_sum (by simp) _ hmem
  omega

theorem learned_height {N : Net ι F} {g k : Int} {eps : F} {mp : Int} {cats : Int → Int}
    {Sc : VarScope} {D : List VarSet} {u : ι} (h : Learned N g k eps mp Sc D u) : (k ≤ 0 ∨ NoEmptyCluster N u) → ScopeOk cats Sc → SameVars D → ExactData F D → D ≠ [] → ∀ keys, Sc.Order keys → keys ≠ [] →
    HeightAtMost N.ch u (keys.length + D.length - 2 + univariateHeight g) := by
  induction h with
  | @leaf Sc D u key v ho _ hu =>
    intro _ _ _ _ hD keys hk hkne
    exact height_mono (univariate_height hu) (by omega)
  | @product Sc D u keys0 K scs cs ds ho hn hK hK1 hlen hsub hl hu hp ih =>
    intro hcl hok hs hx hD keys hk hkne
    obtain ⟨keys1, ho1, hpm, hne⟩ := indepSets_spec hok hK
    have hpos := List.length_pos_iff.2 hD
    have hk2 : 2 ≤ keys.length := by
      have h1 := order_length hk ho
      have h2 := List.length_pos_iff.2 hkne
      omega
    refine height_mono (height_parent (b := keys.length + D.length - 3 + univariateHeight g) fun c hcu => ?_) (by omega)
    have hc : c ∈ ds := by simpa [Net.ch, hu] using hcu
    obtain ⟨i, s, h1, h2⟩ := child_index hlen (hp.mem_iff.1 hc)
    have hsK : s ∈ K := List.mem_of_getElem? h1
    have hnd : s.Nodup := (List.nodup_flatten.1 (hpm.nodup_iff.2 ho1.1)).1 s hsK
    have hlt := part_lt hne (by omega) hsK
    rw [hpm.length_eq, order_length ho1 hk] at hlt
    have hx' : ExactData F (subData D s) := by
      refine ⟨hx.1, fun x hxx c v hv => ?_⟩
      obtain ⟨I, hI, rfl⟩ := List.mem_map.1 hxx
      rw [subInstance] at hv
      split at hv
      · cases hv
        unfold VarSet.get
        cases hc : I c with
        | none => exact hx.1
        | some w => exact hx.2 I hI c w hc
      · cases hv
    have hlen' := length_sub D s
    have hD' : subData D s ≠ [] := by
      intro e
      rw [e] at hlen'
      simp at hlen'
      omega
    have := ih i s c h1 h2 (NoEmptyCluster_child hcl hcu) (subScope_ok (hsub i s h1) hok) (sameVars_sub _ _) hx' hD' s (subScope_order (hsub i s h1) hnd) (fun e => hne (e ▸ hsK))
    rw [hlen'] at this
    exact height_mono this (by omega)
  | @factorized Sc D u keys0 K ho hn hK hK1 hc hf =>
    intro _ hok hs hx hD keys hk hkne
    clear hc
    obtain ⟨ks, cs, ho2, hlen, hu, hcs⟩ := hf
    have hpos := List.length_pos_iff.2 hD
    have hk2 : 2 ≤ keys.length := by
      have h1 := order_length hk ho
      have h2 := List.length_pos_iff.2 hkne
      omega
    refine height_mono (height_parent (b := univariateHeight g) fun c hcu => ?_) (by omega)
    have hc : c ∈ cs := by simpa [Net.ch, hu] using hcu
    obtain ⟨i, s, h1, h2⟩ := child_index hlen hc
    obtain ⟨v, _, hv⟩ := hcs i s c h1 h2
    exact univariate_height hv
  | @sum Sc D u keys0 K C orders cs ps ho hn hK hK1 hC hC1 hlen hor hl hp hu ih =>
    intro hcl hok hs hx hD keys hk hkne
    have hperm := clustered_perm_exact hC hs hx
    have hpos := List.length_pos_iff.2 hD
    have hne : [] ∉ C := by
      rcases hcl with hk0 | hcl
      · exact dbscan_nonempty hk0 hs hx hC
      · intro hnil
        obtain ⟨i, hi⟩ := List.getElem?_of_mem hnil
        have hlt : i < C.length := (List.getElem?_eq_some_iff.1 hi).1
        have hmem : (cs[i]'(by omega), div (ofInt (([] : List VarSet).length : Int)) (ofInt (D.length : Int))) ∈ (cs.zip (C.map fun d => (div (ofInt (d.length : Int)) (ofInt (D.length : Int)) : F))) := by
          apply List.mem_of_getElem? (i := i)
          rw [List.getElem?_zip_eq_some]
          refine ⟨List.getElem?_eq_getElem _, ?_⟩
          rw [List.getElem?_map, hi]
          rfl
        have hw := List.mem_map_of_mem (f := Prod.snd) (hp.mem_iff.2 hmem)
        exact hcl u _ _ Relation.ReflTransGen.refl hu (D.length : Int) (by omega) (by simpa using hw)
    have h3 := List.length_pos_iff.2 hkne
    have hk2 : 2 ≤ keys.length := by
      have h1 := order_length hk ho
      omega
    refine height_mono (height_parent (b := keys.length + D.length - 3 + univariateHeight g) fun c hcu => ?_) (by omega)
    have hc : c ∈ ps.map Prod.fst := by simpa [Net.ch, hu] using hcu
    obtain ⟨i, d, h1, h2⟩ := child_index hlen (sum_children hp hc)
    have hd : d ∈ C := List.mem_of_getElem? h1
    have hlt := part_lt hne hC1 hd
    rw [hperm.length_eq] at hlt
    have hr := reflectScope_eq (hor i)
    have := ih i d c h1 h2 (NoEmptyCluster_child hcl hcu) (by rw [hr]; exact hok) (sameVars_cluster hperm hs hd) ⟨hx.1, fun x hxx => hx.2 x (hperm.mem_iff.1 (List.mem_flatten.2 ⟨d, hd, hxx⟩))⟩
        (fun e => hne (e ▸ hd)) keys (by rw [hr]; exact hk) hkne
    exact height_mono this (by omega)

/-- C137 for DBSCAN (`kclusters <= 0`): no path of the network learned from `n` variables and `m` instances has more than `n + m - 2` links, or one more with
Gaussian mixtures. -/
theorem C137_dbscan {N : Net ι F} {g k : Int} (hk : k ≤ 0) {eps : F} {mp : Int} {cats : Int → Int} {Sc : VarScope} {D : List VarSet} {u : ι} (h : Learned N g k eps mp Sc D u)
    (hok : ScopeOk cats Sc) (hs : SameVars D) (hx : ExactData F D) (hD : D ≠ []) {keys : List Int} (ho : Sc.Order keys) (hne : keys ≠ []) :
    HeightAtMost N.ch u (keys.length + D.length - 2 + if g ≤ 0 then 0 else 1) :=
  learned_height h (Or.inl hk) hok hs hx hD keys ho hne

/-- C137 for both ways of clustering, if no sum has a weight `0/m`. -/
theorem C137_kmeans {N : Net ι F} {g k : Int} {eps : F} {mp : Int} {cats : Int → Int} {Sc : VarScope} {D : List VarSet} {u : ι} (h : Learned N g k eps mp Sc D u)
    (hcl : NoEmptyCluster N u) (hok : ScopeOk cats Sc) (hs : SameVars D) (hx : ExactData F D) (hD : D ≠ []) {keys : List Int} (ho : Sc.Order keys) (hne : keys ≠ []) :
    HeightAtMost N.ch u (keys.length + D.length - 2 + if g ≤ 0 then 0 else 1) :=
  learned_height h (Or.inr hcl) hok hs hx hD keys ho hne

open GensExample in
/-- The hypotheses are met by a network with a path of two links. -/
example : ∃ N : Net (Fin 7) XR, Learned N 0 2 (.fin 0) 1 scope [d0, d1] 0 ∧ NoCycleBelow N.ch 0 ∧ HeightAtMost N.ch 0 2 := by
  obtain ⟨N, h1, _, h3, h4, h5, h6, h7⟩ := C136_attained (.fin 0) 1
  exact ⟨N, h1, C137_no_cycle h1, C137_kmeans h1 h3 h4 h5 h6 (by simp) h7 (by simp)⟩

open GensExample in
/-- The hypotheses of `C137_acyclic` are met: all seven nodes are below the root. -/
example : ∃ N : Net (Fin 7) XR, Learned N 0 2 (.fin 0) 1 scope [d0, d1] 0 ∧ ∀ n, Reach N.ch 0 n := by
  obtain ⟨N, h1, ⟨l, hn, hl, hr⟩, _⟩ := C136_attained (.fin 0) 1
  refine ⟨N, h1, fun n => hr n ?_⟩
  have : l.toFinset = Finset.univ := Finset.eq_univ_of_card _ (by rw [List.toFinset_card_of_nodup hn, hl]; simp)
  have hm := Finset.mem_univ n
  rw [← this] at hm
  simpa using hm

end Gospn
