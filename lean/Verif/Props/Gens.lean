/-
Theorems about structure learning: C37.
-/
import Verif.Proofs.Shape
import Verif.Model.Gens
import Verif.Spec.Spn
import Verif.Spec.Data
import Verif.Proofs.Marginal
import Verif.Proofs.ArgMax
import Verif.Props.UnionFind
import Verif.Props.Multinom
import Verif.Props.Matrix
import Verif.Props.Stats
import Verif.Props.Semantics
import Mathlib.Tactic.FieldSimp
import Mathlib.Data.Fin.VecNotation
import Mathlib.Tactic.FinCases

set_option linter.unusedSectionVars false
set_option linter.unusedSimpArgs false

namespace Gospn
open GoFloat Spec
variable {ι : Type} [Fintype ι]

/-- A scope as the callers make it: the entry of a variable is that variable, with `cats` categories, at least one. -/
def ScopeOk (cats : Int → Int) (Sc : VarScope) : Prop := ∀ k v, Sc k = some v → v.varid = k ∧ v.categories = cats k ∧ 0 < cats k

/-! ### The pieces -/

theorem goSet_length {α : Type} {l l' : List α} {i : Int} {a : α} (h : goSet l i a = some l') : l'.length = l.length := by
  unfold goSet at h
  split at h
  · cases h; simp
  · cases h

theorem foldlM_invariant {α β : Type} {f : β → α → Option β} (P : β → Prop) (hf : ∀ b a b', P b → f b a = some b' → P b') :
    ∀ (l : List α) (b b' : β), P b → l.foldlM f b = some b' → P b' := by
  intro l
  induction l with
  | nil => intro b b' hb h; simp only [List.foldlM_nil, pure, Option.some.injEq] at h; exact h ▸ hb
  | cons a l ih =>
    intro b b' hb h
    rw [List.foldlM_cons] at h
    cases hfa : f b a with
    | none => rw [hfa] at h; simp [bind] at h
    | some c =>
      rw [hfa] at h
      exact ih c b' (hf b a c hb hfa) h

theorem countValues_spec {v : Variable} {D : List VarSet} {counts : List Int} (h : countValues v D = some counts) :
    (counts.length : Int) = v.categories ∧ ∀ c ∈ counts, 0 ≤ c := by
  unfold countValues at h
  split at h
  · cases h
  · rename_i hc
    have := foldlM_invariant (fun counts : List Int => counts.length = v.categories.toNat ∧ ∀ c ∈ counts, 0 ≤ c) (by
      intro b I b' hb hf
      cases hi : goIdx b (I.get v.varid) with
      | none => rw [hi] at hf; cases hf
      | some c =>
        rw [hi] at hf
        simp only [Option.bind_some] at hf
        refine ⟨(goSet_length hf).trans hb.1, ?_⟩
        intro x hx
        have hmem : c ∈ b := by
          unfold goIdx at hi
          split at hi
          · cases hi
          · exact List.mem_of_getElem? hi
        unfold goSet at hf
        split at hf
        · cases hf
          rcases List.mem_or_eq_of_mem_set hx with h1 | h1
          · exact hb.2 x h1
          · have := hb.2 c hmem; omega
        · cases hf) D _ counts ⟨by simp, by simp⟩ h
    exact ⟨by omega, this.2⟩

theorem subScope_spec {Sc Sc' : VarScope} {s : List Int} (h : subScope Sc s = some Sc') :
    (∀ k ∈ s, (Sc k).isSome) ∧ ∀ k, Sc' k = if k ∈ s then (Sc k).map fun v => ⟨k, v.categories⟩ else none := by
  unfold subScope at h
  have gen : ∀ (s : List Int) (m m' : VarScope), s.foldlM (fun (m : VarScope) t => (Sc t).map fun v => fun k => if k = t then some ⟨t, v.categories⟩ else m k) m = some m' →
      (∀ k ∈ s, (Sc k).isSome) ∧ ∀ k, m' k = if k ∈ s then (Sc k).map fun v => ⟨k, v.categories⟩ else m k := by
    intro s
    induction s with
    | nil =>
      intro m m' h
      simp only [List.foldlM_nil, pure, Option.some.injEq] at h
      subst h; simp
    | cons t s ih =>
      intro m m' h
      rw [List.foldlM_cons] at h
      cases hv : Sc t with
      | none => rw [hv] at h; simp [bind] at h
      | some v =>
        rw [hv] at h
        obtain ⟨h1, h2⟩ := ih _ m' h
        refine ⟨?_, ?_⟩
        · intro k hk
          rcases List.mem_cons.1 hk with rfl | hk
          · rw [hv]; rfl
          · exact h1 k hk
        · intro k
          rw [h2]
          by_cases hks : k ∈ s
          · simp [hks]
          · by_cases hkt : k = t
            · subst hkt; simp [hks, hv]
            · simp [hks, hkt]
  exact gen s _ _ h

theorem reflectScope_eq {Sc : VarScope} {keys : List Int} (h : Sc.Order keys) : reflectScope Sc keys = Sc := by
  have gen : ∀ (keys : List Int) (m : VarScope) k, keys.foldl (fun (m : VarScope) u => fun k => if k = u then Sc u else m k) m k = if k ∈ keys then Sc k else m k := by
    intro keys
    induction keys with
    | nil => simp
    | cons u keys ih =>
      intro m k
      rw [List.foldl_cons, ih]
      by_cases h1 : k ∈ keys
      · simp [h1]
      · by_cases h2 : k = u
        · subst h2; simp [h1]
        · simp [h1, h2]
  funext k
  unfold reflectScope
  rw [gen]
  split
  · rfl
  · rename_i hk
    rw [h.2] at hk
    simpa using Eq.symm (by simpa using hk)

theorem guessToData_lengths {F : Type} [GoFloat F] {k : Int} {G : List Int} {M : List (List F)} {Sc : VarSet} {C : List (List VarSet)} (h : guessToData k G M Sc = some C) :
    (C.map List.length).sum = G.length := by
  unfold guessToData at h
  split at h
  · cases h
  · have gen : ∀ (l : List (Int × Nat)) (C0 C : List (List VarSet)), l.foldlM (fun C (g : Int × Nat) => (M[g.2]?).bind fun row =>
        goPush C g.1 (row.zipIdx.foldl (fun (I : VarSet) (x : F × Nat) => I.set (Sc.get x.2) (toInt x.1)) VarSet.empty)) C0 = some C →
        (C.map List.length).sum = (C0.map List.length).sum + l.length := by
      intro l
      induction l with
      | nil =>
        intro C0 C h
        simp only [List.foldlM_nil, pure, Option.some.injEq] at h
        subst h; simp
      | cons g l ih =>
        intro C0 C h
        rw [List.foldlM_cons] at h
        cases hr : M[g.2]? with
        | none => rw [hr] at h; simp [bind] at h
        | some row =>
          rw [hr] at h
          simp only [Option.bind_some, bind] at h
          generalize hI : row.zipIdx.foldl (fun (I : VarSet) (x : F × Nat) => I.set (Sc.get x.2) (toInt x.1)) VarSet.empty = I0 at h
          cases hp : goPush C0 g.1 I0 with
          | none => rw [hp] at h; cases h
          | some C1 =>
            rw [hp] at h
            have hC1 : (C1.map List.length).sum = (C0.map List.length).sum + 1 := by
              unfold goPush at hp
              cases hx : goIdx C0 g.1 with
              | none => rw [hx] at hp; cases hp
              | some x =>
                rw [hx] at hp
                simp only [Option.bind_some] at hp
                unfold goIdx at hx
                unfold goSet at hp
                split at hx
                · cases hx
                · split at hp
                  swap
                  · cases hp
                  · cases hp
                    obtain ⟨hlt, hget⟩ := List.getElem?_eq_some_iff.1 hx
                    have h3 : (C0.set g.1.toNat (x ++ [I0])).map List.length = (C0.map List.length).set g.1.toNat (x.length + 1) := by
                      rw [List.map_set]; simp
                    rw [h3]
                    have h5 : (C0.map List.length) = (C0.map List.length).take g.1.toNat ++ (x.length :: (C0.map List.length).drop (g.1.toNat + 1)) := by
                      have : x.length = (C0.map List.length)[g.1.toNat]'(by simpa using hlt) := by simp [hget]
                      rw [this, List.getElem_cons_drop, List.take_append_drop]
                    rw [List.set_eq_take_append_cons_drop, if_pos (by simpa using hlt)]
                    conv => rhs; rw [h5]
                    simp only [List.sum_append, List.sum_cons]
                    omega
            rw [ih C1 C h, hC1, List.length_cons]; omega
    rw [gen _ _ _ h]
    simp

theorem dataToMatrix_length {α : Type} {conv : Int → α} {zero : α} {ord : MapOrder} {D : List VarSet} {M : List (List α)} {Sc : VarSet}
    (h : dataToMatrix conv zero ord D = some (M, Sc)) : M.length = D.length ∧ 0 < D.length := by
  unfold dataToMatrix at h
  cases h0 : D[0]? with
  | none => rw [h0] at h; cases h
  | some I0 =>
    rw [h0] at h
    simp only [Option.bind_some, Option.map_eq_some_iff] at h
    obtain ⟨st, hst, he⟩ := h
    have gen : ∀ (l : List (VarSet × Nat)) (st st' : MatState α), l.foldlM (addRow conv zero ord (ord 0 I0).length) st = some st' → st'.rows.length = st.rows.length + l.length := by
      intro l
      induction l with
      | nil =>
        intro st st' h
        simp only [List.foldlM_nil, pure, Option.some.injEq] at h
        subst h; simp
      | cons x l ih =>
        intro st st' h
        rw [List.foldlM_cons] at h
        cases ha : addRow conv zero ord (ord 0 I0).length st x with
        | none => rw [ha] at h; cases h
        | some st1 =>
          rw [ha] at h
          rw [ih st1 st' h]
          unfold addRow at ha
          obtain ⟨r, _, rfl⟩ := Option.map_eq_some_iff.1 ha
          simp; omega
    have := gen _ _ _ hst
    simp only [List.length_nil, List.length_zipIdx, Nat.zero_add] at this
    simp only [Prod.mk.injEq] at he
    obtain ⟨hlt, _⟩ := List.getElem?_eq_some_iff.1 h0
    exact ⟨by rw [← he.1]; exact this, hlt⟩

theorem clustered_lengths {F : Type} [GoFloat F] {k : Int} {eps : F} {mp : Int} {D : List VarSet} {C : List (List VarSet)} (h : Clustered k eps mp D C) :
    0 < D.length ∧ (C.map List.length).sum = D.length := by
  obtain ⟨ord, _, h⟩ := h
  split at h
  · obtain ⟨hk, assign, ha, hC⟩ := h
    unfold kMeansDataI at hC
    cases hm : dataToMatrix (ofInt : Int → F) (ofInt 0) ord D with
    | none => rw [hm] at hC; cases hC
    | some p =>
      rw [hm] at hC
      simp only [Option.bind_some] at hC
      cases hG : assign k p.1 with
      | none => rw [hG] at hC; cases hC
      | some G =>
        rw [hG] at hC
        obtain ⟨h1, h2⟩ := dataToMatrix_length (M := p.1) (Sc := p.2) hm
        exact ⟨h2, by rw [guessToData_lengths hC, ha _ _ hG, h1]⟩
  · unfold dbscanData at h
    cases hm : dataToMatrix (ofInt : Int → F) (ofInt 0) ord D with
    | none => rw [hm] at h; cases h
    | some p =>
      rw [hm] at h
      simp only [Option.bind_some] at h
      obtain ⟨h1, h2⟩ := dataToMatrix_length (M := p.1) (Sc := p.2) hm
      refine ⟨h2, ?_⟩
      cases hu : dbscanInternal p.1 eps mp with
      | none => rw [hu] at h; cases h
      | some u =>
        rw [hu] at h
        simp only [Option.bind_some, Option.bind_eq_some_iff] at h
        obtain ⟨⟨G, n⟩, hG, hC⟩ := h
        have := foldlM_invariant (fun st : List Int × Int => st.1.length = p.1.length) (by
          intro b i b' hb hf
          split at hf
          · simp only [Option.bind_eq_some_iff, Option.map_eq_some_iff] at hf
            obtain ⟨ch, _, G', hG', rfl⟩ := hf
            exact foldlM_invariant (fun G : List Int => G.length = p.1.length) (fun b a b' hb hf => (goSet_length hf).trans hb) ch b.1 G' hb hG'
          · cases hf; exact hb) _ _ (G, n) (by simp) hG
        rw [guessToData_lengths hC, ← h1, this]

theorem indepSets_spec {cats : Int → Int} {Sc : VarScope} (hok : ScopeOk cats Sc) {D : List VarSet} {K : List (List Int)} (h : IndepSets Sc D K) :
    ∃ keys, Sc.Order keys ∧ K.flatten.Perm keys ∧ [] ∉ K := by
  obtain ⟨keys, vd, test, h1, h2, h3⟩ := h
  have hids : vd.map (fun x => x.1.varid) = keys := by
    unfold dataToVarData at h2
    have gen : ∀ (keys : List Int) (vd : List (Variable × List Int)), keys.mapM (fun k => (Sc k).map fun v => (v, D.map fun I => I.get v.varid)) = some vd → vd.map (fun x => x.1.varid) = keys := by
      intro keys
      induction keys with
      | nil => intro vd h; simp at h; subst h; rfl
      | cons k keys ih =>
        intro vd h
        simp only [List.mapM_cons, bind, Option.bind_eq_some_iff, pure, Option.some.injEq, Option.map_eq_some_iff] at h
        obtain ⟨_, ⟨v, hv, rfl⟩, vd', h', rfl⟩ := h
        rw [List.map_cons, ih vd' h']
        rw [(hok k v hv).1]
    exact gen keys vd h2
  rw [hids] at h3
  obtain ⟨K1, _, e1, _, e3, _⟩ := C24_components keys h1.1 test
  rw [h3] at e1
  cases e1
  exact ⟨keys, h1, e3.1, e3.2.1⟩

/-! ### Validity from below -/

/-- What has to hold at a node. -/
def GoodNode (N : Net ι XR) (g : Int) (dom : Int → Finset Int) (n : ι) : Prop :=
  match N.kind n with
  | .sum cs w => (∀ c ∈ cs, ∀ d ∈ cs, ∀ v, InScope N c v → InScope N d v) ∧ ∃ r : List ℝ, w = r.map XR.fin ∧ r.length = cs.length ∧ (∀ x ∈ r, 0 ≤ x) ∧ r.sum = 1
  | .product cs => cs.Pairwise (fun c d => ∀ v, ¬ (InScope N c v ∧ InScope N d v))
  | .leaf l => g ≤ 0 → DiscreteLeaf dom l

theorem good_below {N : Net ι XR} {g : Int} {dom : Int → Finset Int} {u : ι} (hu : GoodNode N g dom u) (hc : ∀ c ∈ N.ch u, ∀ n, Reach N.ch c n → GoodNode N g dom n) :
    ∀ n, Reach N.ch u n → GoodNode N g dom n := by
  intro n hn
  rcases Relation.ReflTransGen.cases_head hn with rfl | ⟨c, hc1, hc2⟩
  · exact hu
  · exact hc c hc1 n hc2

/-- The domain of a variable with `cats` categories. -/
noncomputable def catDom (cats : Int → Int) (v : Int) : Finset Int := Finset.Ico 0 (cats v)

theorem inScope_sum {N : Net ι XR} {u : ι} {cs : List ι} {w : List XR} (h : N.kind u = .sum cs w) (v : Int) : InScope N u v ↔ ∃ c ∈ cs, InScope N c v := by
  have hch : N.ch u = cs := by unfold Net.ch; rw [h]
  constructor
  · intro hs
    rcases InScope.inv hs with ⟨l, hl, _⟩ | ⟨c, hc, hs⟩
    · rw [h] at hl; cases hl
    · exact ⟨c, hch ▸ hc, hs⟩
  · rintro ⟨c, hc, hs⟩
    exact InScope.child (hch ▸ hc) hs

theorem inScope_product {N : Net ι XR} {u : ι} {cs : List ι} (h : N.kind u = .product cs) (v : Int) : InScope N u v ↔ ∃ c ∈ cs, InScope N c v := by
  have hch : N.ch u = cs := by unfold Net.ch; rw [h]
  constructor
  · intro hs
    rcases InScope.inv hs with ⟨l, hl, _⟩ | ⟨c, hc, hs⟩
    · rw [h] at hl; cases hl
    · exact ⟨c, hch ▸ hc, hs⟩
  · rintro ⟨c, hc, hs⟩
    exact InScope.child (hch ▸ hc) hs

theorem ch_of_leaf {N : Net ι XR} {u : ι} {l : Leaf XR} (h : N.kind u = .leaf l) : N.ch u = [] := by unfold Net.ch; rw [h]

theorem univariate_good {N : Net ι XR} {g : Int} {v : Variable} {D : List VarSet} {u : ι} {cats : Int → Int} (hcat : v.categories = cats v.varid) (hpos : 0 < cats v.varid)
    (h : IsUnivariate N g v D u) : (∀ x, InScope N u x ↔ x = v.varid) ∧ ∀ n, Reach N.ch u n → GoodNode N g (catDom cats) n := by
  unfold IsUnivariate at h
  split at h
  · rename_i hg
    obtain ⟨rand, counts, l, hr, hc, hl, hu⟩ := h
    obtain ⟨hlen, hnn⟩ := countValues_spec hc
    have hne : counts ≠ [] := by rintro rfl; simp at hlen; omega
    obtain ⟨l', q, hl', hq, ht, hqp, hqs⟩ := C51_counting rand hr v.varid counts hnn hne
    rw [hl] at hl'
    cases hl'
    obtain ⟨sc, k, m, rfl, _, _⟩ := ht
    refine ⟨fun x => ?_, good_below ?_ (by rw [ch_of_leaf hu]; simp)⟩
    · rw [InScope.of_leaf hu]; simp only [leafVar]; exact eq_comm
    · unfold GoodNode
      rw [hu]
      intro _
      refine ⟨q, rfl, fun x hx => (hqp x hx).le, hqs, fun x => ?_⟩
      unfold catDom
      rw [Finset.mem_Ico, ← hcat, ← hlen, hq, List.length_map]
  · rename_i hg
    obtain ⟨Q, cs, hQ, hlen, hu, hcs⟩ := h
    have hQlen : Q.length = g.toNat := by
      unfold partitionQuantiles at hQ
      rw [if_neg (by omega)] at hQ
      rw [mapM_length hQ, List.length_range]
    have hleaf : ∀ c ∈ cs, ∃ mu sigma, N.kind c = .leaf (.gaussian v.varid mu sigma) := by
      intro c hc
      obtain ⟨i, hi, hget⟩ := List.mem_iff_getElem.1 hc
      obtain ⟨mu, sigma, _, _, hk⟩ := hcs i (Q[i]'(by omega)) c (by simp) (by rw [List.getElem?_eq_getElem hi, hget])
      exact ⟨mu, sigma, hk⟩
    have hsc : ∀ c ∈ cs, ∀ x, InScope N c x ↔ x = v.varid := by
      intro c hc x
      obtain ⟨mu, sigma, hk⟩ := hleaf c hc
      rw [InScope.of_leaf hk]; simp only [leafVar]; exact eq_comm
    have hch : N.ch u = cs := by unfold Net.ch; rw [hu]
    refine ⟨fun x => ?_, good_below ?_ ?_⟩
    · rw [inScope_sum hu]
      constructor
      · rintro ⟨c, hc, hs⟩; exact (hsc c hc x).1 hs
      · intro hx
        obtain ⟨c, hc⟩ := List.exists_mem_of_length_pos (show 0 < cs.length by omega)
        exact ⟨c, hc, (hsc c hc x).2 hx⟩
    · unfold GoodNode
      rw [hu]
      refine ⟨fun c hc d hd x hx => (hsc d hd x).2 ((hsc c hc x).1 hx), List.replicate Q.length (1 / (Q.length : ℝ)), ?_, by simp [hlen], ?_, ?_⟩
      · have hn : ((Q.length : Int) : ℝ) ≠ 0 := by
          have : Q.length ≠ 0 := by omega
          exact_mod_cast this
        rw [List.map_replicate, List.eq_replicate_iff]
        refine ⟨by simp, fun b hb => ?_⟩
        obtain ⟨q, _, rfl⟩ := List.mem_map.1 hb
        simp only [XR.g_ofInt, XR.g_div, XR.div_fin hn]
        simp
      · intro x hx
        rw [List.eq_of_mem_replicate hx]
        positivity
      · rw [List.sum_replicate, nsmul_eq_mul]
        have : (Q.length : ℝ) ≠ 0 := by
          have : Q.length ≠ 0 := by omega
          exact_mod_cast this
        field_simp
    · rw [hch]
      intro c hc
      obtain ⟨mu, sigma, hk⟩ := hleaf c hc
      refine good_below ?_ (by rw [ch_of_leaf hk]; simp)
      unfold GoodNode
      rw [hk]
      intro hg'
      exact absurd hg' hg

/-- A product whose children have the disjoint scopes `S i`. -/
theorem product_good {N : Net ι XR} {g : Int} {dom : Int → Finset Int} {u : ι} {ds cs : List ι} (hu : N.kind u = .product ds) (hp : ds.Perm cs) (K : List (List Int))
    (hlen : cs.length = K.length) (hnd : K.flatten.Nodup)
    (hs : ∀ (i : Nat) s c, K[i]? = some s → cs[i]? = some c → (∀ v, InScope N c v ↔ v ∈ s) ∧ ∀ n, Reach N.ch c n → GoodNode N g dom n) :
    (∀ v, InScope N u v ↔ v ∈ K.flatten) ∧ ∀ n, Reach N.ch u n → GoodNode N g dom n := by
  have hch : N.ch u = ds := by unfold Net.ch; rw [hu]
  have hmem : ∀ c ∈ cs, ∃ (i : Nat) (s : List Int), K[i]? = some s ∧ cs[i]? = some c := by
    intro c hc
    obtain ⟨i, hi, hget⟩ := List.mem_iff_getElem.1 hc
    exact ⟨i, K[i]'(by omega), by simp, by rw [List.getElem?_eq_getElem hi, hget]⟩
  refine ⟨fun v => ?_, good_below ?_ ?_⟩
  · rw [inScope_product hu, List.mem_flatten]
    constructor
    · rintro ⟨c, hc, hv⟩
      obtain ⟨i, s, h1, h2⟩ := hmem c (hp.mem_iff.1 hc)
      exact ⟨s, List.mem_of_getElem? h1, ((hs i s c h1 h2).1 v).1 hv⟩
    · rintro ⟨s, hsm, hv⟩
      obtain ⟨i, hi, hget⟩ := List.mem_iff_getElem.1 hsm
      have hi' : i < cs.length := by omega
      refine ⟨cs[i], hp.mem_iff.2 (List.getElem_mem hi'), ?_⟩
      exact ((hs i s cs[i] (by rw [List.getElem?_eq_getElem hi, hget]) (by simp)).1 v).2 hv
  · unfold GoodNode
    rw [hu]
    show ds.Pairwise _
    refine (List.Perm.pairwise_iff (fun {a b} h v hv => h v ⟨hv.2, hv.1⟩) hp).2 ?_
    rw [List.pairwise_iff_getElem]
    intro i j hi hj hij v hv
    have h1 := ((hs i K[i] cs[i] (by simp) (by simp)).1 v).1 hv.1
    have h2 := ((hs j K[j] cs[j] (by simp) (by simp)).1 v).1 hv.2
    have hpw := (List.nodup_flatten.1 hnd).2
    rw [List.pairwise_iff_getElem] at hpw
    exact hpw i j (by omega) (by omega) hij h1 h2
  · rw [hch]
    intro c hc
    obtain ⟨i, s, h1, h2⟩ := hmem c (hp.mem_iff.1 hc)
    exact (hs i s c h1 h2).2

theorem learned_good {N : Net ι XR} {g k : Int} {eps : XR} {mp : Int} {Sc : VarScope} {D : List VarSet} {u : ι} (h : Learned N g k eps mp Sc D u) (cats : Int → Int) :
    ScopeOk cats Sc → (∀ v, InScope N u v ↔ (Sc v).isSome) ∧ ∀ n, Reach N.ch u n → GoodNode N g (catDom cats) n := by
  induction h with
  | @leaf Sc D u key v hord hv hun =>
    intro hok
    obtain ⟨h1, h2, h3⟩ := hok key v hv
    obtain ⟨hs, hg⟩ := univariate_good (cats := cats) (by rw [h1]; exact h2) (by rw [h1]; exact h3) hun
    refine ⟨fun x => ?_, hg⟩
    rw [hs, ← hord.2, h1, List.mem_singleton]
  | @product Sc D u keys K scs cs ds hord hn hK hK1 hlen hsub _ hu hp ih =>
    intro hok
    obtain ⟨keys', ho', hperm, hne⟩ := indepSets_spec hok hK
    have := product_good (g := g) (dom := catDom cats) hu hp K hlen (hperm.nodup_iff.2 ho'.1) (fun i s c h1 h2 => by
      obtain ⟨hd1, hd2⟩ := subScope_spec (hsub i s h1)
      have hoki : ScopeOk cats (scs i) := by
        intro x v hx
        rw [hd2] at hx
        split at hx
        · obtain ⟨w, hw, rfl⟩ := Option.map_eq_some_iff.1 hx
          exact ⟨rfl, (hok x w hw).2⟩
        · cases hx
      obtain ⟨g1, g2⟩ := ih i s c h1 h2 hoki
      refine ⟨fun v => ?_, g2⟩
      rw [g1, hd2]
      by_cases hv : v ∈ s
      · have := hd1 v hv
        simp [hv, this]
      · simp [hv])
    refine ⟨fun v => ?_, this.2⟩
    rw [this.1, hperm.mem_iff, ho'.2]
  | @factorized Sc D u keys K hord hn hK hK1 hc hf =>
    intro hok
    obtain ⟨ks, cs, ho, hlen, hu, hcs⟩ := hf
    have := product_good (g := g) (dom := catDom cats) hu (List.Perm.refl cs) (ks.map fun k => [k]) (by simpa using hlen) (by
      have : (ks.map fun k => [k]).flatten = ks := by
        rw [← List.flatMap_def]; simp
      rw [this]; exact ho.1) (fun i s c h1 h2 => by
        rw [List.getElem?_map, Option.map_eq_some_iff] at h1
        obtain ⟨x, hx, rfl⟩ := h1
        obtain ⟨v, hv, hun⟩ := hcs i x c hx h2
        obtain ⟨e1, e2, e3⟩ := hok x v hv
        obtain ⟨hs, hg⟩ := univariate_good (cats := cats) (by rw [e1]; exact e2) (by rw [e1]; exact e3) hun
        exact ⟨fun y => by rw [hs, e1, List.mem_singleton], hg⟩)
    refine ⟨fun v => ?_, this.2⟩
    rw [this.1]
    have : (ks.map fun k => [k]).flatten = ks := by rw [← List.flatMap_def]; simp
    rw [this, ho.2]
  | @sum Sc D u keys K C orders cs ps hord hn hK hK1 hC hC1 hlen hords _ hp hu ih =>
    intro hok
    obtain ⟨hD, hsum⟩ := clustered_lengths hC
    have hfst : (ps.map Prod.fst).Perm cs := by
      have := hp.map Prod.fst
      rwa [List.map_fst_zip (by simp [hlen])] at this
    have hch : N.ch u = ps.map Prod.fst := by unfold Net.ch; rw [hu]
    have hc : ∀ c ∈ ps.map Prod.fst, (∀ v, InScope N c v ↔ (Sc v).isSome) ∧ ∀ n, Reach N.ch c n → GoodNode N g (catDom cats) n := by
      intro c hc
      obtain ⟨i, hi, hget⟩ := List.mem_iff_getElem.1 (hfst.mem_iff.1 hc)
      have := ih i (C[i]'(by omega)) c (by simp) (by rw [List.getElem?_eq_getElem hi, hget])
      rw [reflectScope_eq (hords i)] at this
      exact this hok
    have hCne : C ≠ [] := by
      rintro rfl
      simp at hsum; omega
    have hcsne : 0 < cs.length := by
      rw [hlen]; exact List.length_pos_iff.2 hCne
    refine ⟨fun v => ?_, good_below ?_ ?_⟩
    · rw [inScope_sum hu]
      constructor
      · rintro ⟨c, hcm, hv⟩; exact ((hc c hcm).1 v).1 hv
      · intro hv
        obtain ⟨c, hcm⟩ := List.exists_mem_of_length_pos hcsne
        have hcm' := hfst.mem_iff.2 hcm
        exact ⟨c, hcm', ((hc c hcm').1 v).2 hv⟩
    · unfold GoodNode
      rw [hu]
      refine ⟨fun c h1 d h2 v hv => ((hc d h2).1 v).2 (((hc c h1).1 v).1 hv), ?_⟩
      have hn : ((D.length : Int) : ℝ) ≠ 0 := by
        have : D.length ≠ 0 := by omega
        exact_mod_cast this
      have hw : C.map (fun d => (div (ofInt (d.length : Int)) (ofInt (D.length : Int)) : XR)) = (C.map fun d => (d.length : ℝ) / D.length).map XR.fin := by
        rw [List.map_map]
        apply List.map_congr_left
        intro d _
        simp only [XR.g_ofInt, XR.g_div, XR.div_fin hn, Function.comp]
        simp
      rw [hw] at hp
      have hsnd : (ps.map Prod.snd).Perm ((C.map fun d => (d.length : ℝ) / D.length).map XR.fin) := by
        have := hp.map Prod.snd
        rwa [List.map_snd_zip (by simp [hlen])] at this
      obtain ⟨r, hr1, hr2⟩ : ∃ r : List ℝ, ps.map Prod.snd = r.map XR.fin ∧ r.Perm (C.map fun d => (d.length : ℝ) / D.length) := by
        have gen : ∀ (l : List XR) (q : List ℝ), l.Perm (q.map XR.fin) → ∃ r : List ℝ, l = r.map XR.fin ∧ r.Perm q := by
          intro l q hl
          have : ∀ x ∈ l, ∃ y, x = XR.fin y := by
            intro x hx
            obtain ⟨y, _, rfl⟩ := List.mem_map.1 (hl.mem_iff.1 hx)
            exact ⟨y, rfl⟩
          obtain ⟨r, rfl⟩ : ∃ r : List ℝ, l = r.map XR.fin := by
            clear hl
            induction l with
            | nil => exact ⟨[], rfl⟩
            | cons x l ih =>
              obtain ⟨y, rfl⟩ := this x (by simp)
              obtain ⟨r, rfl⟩ := ih (fun x hx => this x (by simp [hx]))
              exact ⟨y :: r, rfl⟩
          refine ⟨r, rfl, ?_⟩
          exact (List.map_perm_map_iff (fun a b h => by cases h; rfl)).1 hl
        exact gen _ _ hsnd
      refine ⟨r, hr1, ?_, ?_, ?_⟩
      · have := congrArg List.length hr1
        simp only [List.length_map] at this ⊢
        omega
      · intro x hx
        obtain ⟨d, _, rfl⟩ := List.mem_map.1 (hr2.mem_iff.1 hx)
        positivity
      · rw [hr2.sum_eq]
        have : ∀ l : List (List VarSet), (l.map fun d => (d.length : ℝ) / D.length).sum = ((l.map List.length).sum : ℕ) / (D.length : ℝ) := by
          intro l
          induction l with
          | nil => simp
          | cons d l ih => rw [List.map_cons, List.sum_cons, ih, List.map_cons, List.sum_cons]; push_cast; ring
        rw [this, hsum]
        exact div_self (by exact_mod_cast hn)
    · rw [hch]
      intro c hcm
      exact (hc c hcm).2

/-- C37: whatever the data, the independence tests and the clusterings, an SPN that `Learn` or `LearnGauss` (or their concurrent variants) returns has exactly the
variables of the scope as scope, is complete and decomposable, has weights that form a probability vector at every sum, and, for `Learn`, its leaves are distributions
that sum to one on the categories of their variables. -/
theorem C37_learn {N : Net ι XR} {g k : Int} {eps : XR} {mp : Int} {Sc : VarScope} {D : List VarSet} {u : ι} (h : Learned N g k eps mp Sc D u)
    (cats : Int → Int) (hok : ScopeOk cats Sc) :
    (∀ v, InScope N u v ↔ (Sc v).isSome) ∧ IsComplete N u ∧ IsDecomposable N u ∧ DistWeights N u ∧
    (g ≤ 0 → DiscreteLeaves N u (fun v => Finset.Ico 0 (cats v))) := by
  obtain ⟨h1, h2⟩ := learned_good h cats hok
  refine ⟨h1, ?_, ?_, ?_, ?_⟩
  · intro n hn cs w hk
    have := h2 n hn
    unfold GoodNode at this
    rw [hk] at this
    exact this.1
  · intro n hn cs hk
    have := h2 n hn
    unfold GoodNode at this
    rw [hk] at this
    exact this
  · intro n hn cs w hk
    have := h2 n hn
    unfold GoodNode at this
    rw [hk] at this
    exact this.2
  · intro hg n l hn hk
    have := h2 n hn
    unfold GoodNode at this
    rw [hk] at this
    exact this hg

/-- The learned SPN is a probability distribution: the values of the complete instances of its variables sum to one. -/
theorem C37_distribution [DecidableEq ι] {N : Net ι XR} {g k : Int} {eps : XR} {mp : Int} {Sc : VarScope} {D : List VarSet} {u : ι} (h : Learned N g k eps mp Sc D u)
    (hg : g ≤ 0) (hac : Acyclic N.ch) (cats : Int → Int) (hok : ScopeOk cats Sc) :
    ∃ (L : Finset VarSet) (f : VarSet → XR), (∀ J, J ∈ L ↔ ∀ v, if (Sc v).isSome then ∃ x, J v = some x ∧ 0 ≤ x ∧ x < cats v else J v = none) ∧
      (∀ J ∈ L, N.value J u = some (f J) ∧ IsLogProb (f J)) ∧ ∑ J ∈ L, unlog (f J) = 1 := by
  obtain ⟨h1, h2, h3, h4, h5⟩ := C37_learn h cats hok
  obtain ⟨x, L, f, _, _, e1, e2, e3, e4⟩ := C06_value_marginal N u (fun v => Finset.Ico 0 (cats v)) (fun _ => none) hac h2 h3 h4 (h5 hg) (by intro v _ x hx; cases hx)
  refine ⟨L, f, fun J => ?_, e2, ?_⟩
  · rw [e1]
    unfold Completion
    refine forall_congr' fun v => ?_
    rw [h1]
    by_cases hv : (Sc v).isSome
    · simp only [hv, forall_true_left, if_true, Finset.mem_Ico, not_true, IsEmpty.forall_iff, and_true, reduceCtorEq, implies_true]
      constructor
      · rintro ⟨x, h, e⟩; exact ⟨x, e, h⟩
      · rintro ⟨x, e, h⟩; exact ⟨x, h, e⟩
    · simp [hv]
  · rw [← e3, e4 (fun _ _ => rfl)]
    simp [unlog]

/-! ### A learned network: two dependent variables, two clusters -/

namespace GensExample

/-- The instances of the example. -/
def d0 : VarSet := (VarSet.empty.set 0 0).set 1 1
def d1 : VarSet := (VarSet.empty.set 0 1).set 1 0
/-- The scope of the example: two variables with two categories. -/
def scope : VarScope := fun k => if k = 0 then some ⟨0, 2⟩ else if k = 1 then some ⟨1, 2⟩ else none

theorem scope_order : scope.Order [0, 1] := by
  refine ⟨by decide, fun k => ?_⟩
  unfold scope
  by_cases h0 : k = 0 <;> by_cases h1 : k = 1 <;> simp [h0, h1]

theorem sets (D : List VarSet) : IndepSets scope D [[1, 0]] :=
  ⟨[0, 1], [(⟨0, 2⟩, D.map fun I => I.get 0), (⟨1, 2⟩, D.map fun I => I.get 1)], fun _ _ => false, scope_order, rfl, show newUFIndepGraph [0, 1] (fun _ _ => false) = some [[1, 0]] by decide⟩

theorem clusters (eps : XR) (mp : Int) : Clustered 2 eps mp [d0, d1] [[d0], [d1]] := by
  have ho : OrdersOf (fun _ _ => [0, 1]) [d0, d1] := by
    intro t x hx
    refine ⟨by simp, fun k => ?_⟩
    simp only [List.mem_cons, List.not_mem_nil, or_false] at hx
    rcases hx with rfl | rfl <;> by_cases h0 : k = 0 <;> by_cases h1 : k = 1 <;> simp [d0, d1, VarSet.set, VarSet.empty, h0, h1]
  have hs : SameVars [d0, d1] := by
    intro x hx y hy k
    simp only [List.mem_cons, List.not_mem_nil, or_false] at hx hy
    rcases hx with rfl | rfl <;> rcases hy with rfl | rfl <;> by_cases h0 : k = 0 <;> by_cases h1 : k = 1 <;> simp [d0, d1, VarSet.set, VarSet.empty, h0, h1]
  obtain ⟨M, Sc, C, h1, h2, h3, h4, _⟩ := C39_groups (F := XR) (k := 2) (G := [0, 1]) (by simp) ho hs (by intro x _ c v _; simp [XR.toInt]) rfl (by decide)
  have hC : C = [[d0], [d1]] := by
    have a0 := h4 0 (by omega)
    have a1 := h4 1 (by omega)
    match C, h3, a0, a1 with
    | [x, y], _, a0, a1 =>
      simp at a0 a1
      rw [a0, a1]
  refine ⟨fun _ _ => [0, 1], ho, ?_⟩
  rw [if_pos (by omega)]
  refine ⟨by simp, fun _ M => if M.length = 2 then some [0, 1] else none, ?_, ?_⟩
  · intro M G h
    dsimp only at h
    split at h
    · rename_i hM; cases h; rw [hM]; rfl
    · cases h
  · unfold kMeansDataI
    rw [h1]
    simp only [Option.bind_some]
    rw [if_pos (show M.length = 2 from (dataToMatrix_length h1).1), Option.bind_some, ← hC]
    exact h2

/-- There is a network that `Learn` can return for these instances: a sum over two products of two leaves. -/
theorem learned (eps : XR) (mp : Int) : ∃ N : Net (Fin 7) XR, Learned N 0 2 eps mp scope [d0, d1] 0 ∧ Acyclic N.ch ∧ ScopeOk (fun _ => 2) scope ∧ TreeBelow N.ch 0 ∧ N.type 0 ≠ .leaf := by
  have hrand : ∀ n, 0 < n → (fun _ => 0 : Nat → Nat) n < n := fun n hn => hn
  obtain ⟨a, _, ha, _⟩ := C51_counting (fun _ => 0) hrand 0 [1, 0] (by decide) (by simp)
  obtain ⟨b, _, hb, _⟩ := C51_counting (fun _ => 0) hrand 1 [0, 1] (by decide) (by simp)
  obtain ⟨c, _, hc, _⟩ := C51_counting (fun _ => 0) hrand 0 [0, 1] (by decide) (by simp)
  obtain ⟨d, _, hd, _⟩ := C51_counting (fun _ => 0) hrand 1 [1, 0] (by decide) (by simp)
  let w : XR := div (ofInt 1) (ofInt 2)
  let N : Net (Fin 7) XR := ⟨![.sum [1, 2] [w, w], .product [3, 4], .product [5, 6], .leaf a, .leaf b, .leaf c, .leaf d]⟩
  have leafOf : ∀ (v : Variable) (D : List VarSet) (counts : List Int) (l : Leaf XR) (u : Fin 7), countValues v D = some counts →
      newCountingMultinomial (fun _ => 0) v.varid counts = some l → N.kind u = .leaf l → IsUnivariate N 0 v D u := by
    intro v D counts l u h1 h2 h3
    unfold IsUnivariate
    rw [if_pos le_rfl]
    exact ⟨fun _ => 0, counts, l, hrand, h1, h2, h3⟩
  have factor : ∀ (D : List VarSet) (u x y : Fin 7), D.length = 1 → N.kind u = .product [x, y] → IsUnivariate N 0 ⟨0, 2⟩ D x → IsUnivariate N 0 ⟨1, 2⟩ D y →
      Learned N 0 2 eps mp scope D u := by
    intro D u x y hD hu h0 h1
    refine .factorized [0, 1] [[1, 0]] scope_order (by simp) (sets D) (by simp) (Or.inl ⟨by omega, by omega⟩) ⟨[0, 1], [x, y], scope_order, rfl, hu, ?_⟩
    intro i k c hk hc
    match i, hk, hc with
    | 0, hk, hc =>
      simp at hk hc; subst hk; subst hc
      exact ⟨⟨0, 2⟩, rfl, h0⟩
    | 1, hk, hc =>
      simp at hk hc; subst hk; subst hc
      exact ⟨⟨1, 2⟩, rfl, h1⟩
    | i + 2, hk, hc => simp at hk
  have l1 : Learned N 0 2 eps mp scope [d0] 1 := factor [d0] 1 3 4 rfl rfl (leafOf _ _ [1, 0] a 3 (by decide) ha rfl) (leafOf _ _ [0, 1] b 4 (by decide) hb rfl)
  have l2 : Learned N 0 2 eps mp scope [d1] 2 := factor [d1] 2 5 6 rfl rfl (leafOf _ _ [0, 1] c 5 (by decide) hc rfl) (leafOf _ _ [1, 0] d 6 (by decide) hd rfl)
  refine ⟨N, ?_, ?_, ?_, ?_, ?_⟩
  · refine .sum [0, 1] [[1, 0]] [[d0], [d1]] (fun _ => [0, 1]) [1, 2] [(1, w), (2, w)] scope_order (by simp) (sets _) (by simp) (clusters eps mp) (by simp) rfl
      (fun _ => scope_order) ?_ (List.Perm.refl _) rfl
    intro i d c hd hc
    rw [reflectScope_eq scope_order]
    match i, hd, hc with
    | 0, hd, hc =>
      simp at hd hc; subst hd; subst hc
      exact l1
    | 1, hd, hc =>
      simp at hd hc; subst hd; subst hc
      exact l2
    | i + 2, hd, hc => simp at hd
  · refine ⟨fun n => 7 - n.val, fun u c hc => ?_⟩
    have : c ∈ N.ch u := hc
    fin_cases u <;> simp [Net.ch, N] at this <;> (try rcases this with rfl | rfl) <;> decide
  · intro k v hv
    unfold scope at hv
    split at hv
    · rename_i h; cases hv; subst h; exact ⟨rfl, rfl, show (0 : Int) < 2 by omega⟩
    · split at hv
      · rename_i h; cases hv; subst h; exact ⟨rfl, rfl, show (0 : Int) < 2 by omega⟩
      · cases hv
  · refine tree_of_parent 0 ![0, 0, 0, 1, 1, 2, 2] fun u c hc => ?_
    have : c ∈ N.ch u := hc
    fin_cases u <;> simp [Net.ch, N] at this <;> (try rcases this with rfl | rfl) <;> rfl
  · simp [Net.type, N]

example : ∃ N : Net (Fin 7) XR, Learned N 0 2 (.fin 0) 1 scope [d0, d1] 0 ∧ Acyclic N.ch ∧ ScopeOk (fun _ => 2) scope := by
  obtain ⟨N, h1, h2, h3, _⟩ := learned (.fin 0) 1
  exact ⟨N, h1, h2, h3⟩

end GensExample

end Gospn
