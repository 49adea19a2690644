import Verif.Model.Serial
import Verif.Spec.Serial
import Verif.Proofs.Infer
import Verif.Proofs.ArgMax
import Verif.Proofs.TopoVariants
/-
Marshal and Unmarshal.
-/
set_option linter.unusedSectionVars false
namespace Gospn
open Spec GoFloat
variable {ι κ F : Type}

theorem getUint32_putUint32 {n : Nat} (h : n < 4294967296) : getUint32 (putUint32 n) = n := by
  simp only [getUint32, putUint32]; omega

theorem scanFloats_map (l : List F) (r : List (Tok F)) : scanFloats l.length (l.map Tok.flt ++ r) = some l := by
  induction l with
  | nil => cases r <;> rfl
  | cons x l ih => simp [scanFloats, ih]

/-- The kind without its children. -/
def bare : Kind ι F → Kind Nat F
  | .sum _ w => .sum [] w
  | .product _ => .product []
  | .leaf l => .leaf l

theorem gobDecode_encode [GoFloat F] (f6 : F → F) (k : Kind ι F) : gobDecode (gobEncode f6 k) = some (bare (storedKind f6 k)) := by
  cases k with
  | sum cs w =>
    have : ¬ ((w.length : Int) < 0) := by omega
    have h := scanFloats_map (w.map f6) []
    simp only [List.length_map, List.append_nil, List.map_map] at h
    simp only [gobEncode, gobDecode, this, if_false, Int.toNat_natCast]
    rw [show w.map (fun x => Tok.flt (f6 x)) = w.map (Tok.flt ∘ f6) from rfl, h]; rfl
  | product cs => rfl
  | leaf l =>
    cases l with
    | indicator v x => rfl
    | gaussian v m s => rfl
    | multinomial sc v pr mi mv =>
      have : ¬ ((pr.length : Int) < 0) := by omega
      have h := scanFloats_map (pr.map f6) []
      simp only [List.length_map, List.append_nil, List.map_map] at h
      simp only [gobEncode, gobDecode, this, if_false, Int.toNat_natCast]
      rw [show pr.map (fun x => Tok.flt (f6 x)) = pr.map (Tok.flt ∘ f6) from rfl, h]; rfl

section Graph
variable [DecidableEq ι] [Fintype ι]

theorem marshal_fold (f6 : F → F) (N : Net ι F) : ∀ (done l : List ι) (st : MarshalSt ι F), (done ++ l).Nodup → ChildrenFirst N.ch (done ++ l) →
    st.n = done.length → (∀ z ∈ done, st.M z = some ((done ++ l).idxOf z)) →
    let st' := l.foldl (marshalStep f6 N) st
    st'.n = (done ++ l).length ∧ st'.list = st.list ++ l.map (fun z => (N.ch z).map (done ++ l).idxOf) ∧
      st'.msgs = st.msgs ++ (l.zipIdx done.length).map (fun p => (p.2, gobEncode f6 (N.kind p.1))) := by
  intro done l
  induction l generalizing done with
  | nil => intro st _ _ hn _; simp [hn]
  | cons z l ih =>
    intro st hnd hcf hn hM
    have hch : ∀ c ∈ N.ch z, c ∈ done := hcf done z l rfl
    have hz : z ∉ done := by
      intro h; rw [List.nodup_append] at hnd; exact hnd.2.2 z h z (by simp) rfl
    dsimp only
    rw [List.foldl_cons]
    have e : done ++ z :: l = (done ++ [z]) ++ l := by simp
    obtain ⟨h1, h2, h3⟩ := ih (done ++ [z]) (marshalStep f6 N st z) (by rw [← e]; exact hnd) (by rw [← e]; exact hcf) (by simp [marshalStep, hn]) (by
      intro y hy
      simp only [marshalStep]
      by_cases hyz : y = z
      · subst hyz
        rw [Function.update_self, hn, ← e, List.idxOf_append_of_notMem hz]; simp
      · have hyd : y ∈ done := by simpa [hyz] using hy
        rw [Function.update_of_ne hyz, hM y hyd, e])
    rw [e]
    refine ⟨h1, ?_, ?_⟩
    · rw [h2]
      simp only [marshalStep, List.map_cons, List.append_assoc, List.singleton_append]
      congr 2
      apply List.map_congr_left
      intro c hc
      have hcd := hch c hc
      have : c ≠ z := fun h => hz (h ▸ hcd)
      rw [Function.update_of_ne this, hM c hcd]; simp
    · rw [h3]
      simp [marshalStep, hn, List.zipIdx_cons]

theorem marshal_eq [GoFloat F] (f6 : F → F) (N : Net ι F) (S : ι) (hac : Acyclic N.ch) (hso : SiblingOrdered N.ch S) :
    let l := N.order S
    marshal f6 N S = { header := putUint32 l.length, msgs := l.zipIdx.map (fun p => (p.2, gobEncode f6 (N.kind p.1))), list := l.map (fun z => (N.ch z).map l.idxOf) } := by
  intro l
  have hl : tarjanOrder N.ch S = l := (Net.order_eq N S).symm
  unfold marshal
  rw [topSortTarjanFunc_eq, callUntilFalse_true _ (fun _ _ => rfl), hl]
  obtain ⟨h1, h2, h3⟩ := marshal_fold f6 N [] l ⟨fun _ => none, [], 0, []⟩ (by simpa using (N.order_lists S).1) (by simpa using Net.order_childrenFirst hac hso) rfl (by simp)
  dsimp only at h1 h2 h3 ⊢
  rw [h1, h2, h3]
  simp

theorem readNodes_fold [GoFloat F] (f6 : F → F) (N : Net ι F) : ∀ (l done : List ι),
    ((l.zipIdx done.length).map (fun p => (p.2, gobEncode f6 (N.kind p.1)))).foldlM readNode
      (done.map (fun z => some (bare (storedKind f6 (N.kind z)))) ++ List.replicate l.length none) =
    some ((done ++ l).map (fun z => some (bare (storedKind f6 (N.kind z))))) := by
  intro l
  induction l with
  | nil => intro done; simp
  | cons z l ih =>
    intro done
    rw [List.zipIdx_cons, List.map_cons, List.foldlM_cons]
    simp only [readNode, gobDecode_encode, Option.bind_some]
    rw [if_pos (by simp)]
    simp only [Option.bind_eq_bind, Option.bind_some]
    have := ih (done ++ [z])
    simp only [List.length_append, List.length_singleton] at this
    rw [List.append_assoc] at this
    rw [← List.singleton_append (l := l), ← this]
    congr 1
    rw [List.set_append_right _ _ (by simp)]
    simp [List.replicate_succ]

/-- The kind with the children at their positions in `l`. -/
def placed [GoFloat F] (f6 : F → F) (N : Net ι F) (l : List ι) (z : ι) : Kind Nat F := relabel l.idxOf (storedKind f6 (N.kind z))

theorem readChildren_cons (M : List (Option (Kind Nat F))) (c : Nat) (cs : List Nat) (i : Nat) :
    readChildren M (c :: cs, i) = (if c < M.length then
      (match M[i]? with
      | some (some k) => (addChild k c).map (fun k => M.set i (some k))
      | _ => none) else none).bind (fun M => readChildren M (cs, i)) := rfl

theorem readChildren_sum (n : Nat) (i : Nat) (cs' : List Nat) (w : List F) (A B : List (Option (Kind Nat F))) (hi : A.length = i)
    (hn : (A ++ some (Kind.sum (F := F) cs' w) :: B).length = n) (cs : List Nat) (hc : ∀ c ∈ cs, c < n) :
    readChildren (A ++ some (.sum cs' w) :: B) (cs, i) = some (A ++ some (.sum (cs' ++ cs) w) :: B) := by
  induction cs generalizing cs' with
  | nil => simp [readChildren]
  | cons c cs ih =>
    rw [readChildren_cons, if_pos (by rw [hn]; exact hc c (by simp))]
    have hg : (A ++ some (Kind.sum (F := F) cs' w) :: B)[i]? = some (some (.sum cs' w)) := by
      rw [List.getElem?_append_right (by omega)]; simp [hi]
    have hs : (A ++ some (Kind.sum (F := F) cs' w) :: B).set i (some (.sum (cs' ++ [c]) w)) = A ++ some (Kind.sum (F := F) (cs' ++ [c]) w) :: B := by
      rw [List.set_append_right _ _ (by omega)]; simp [hi]
    rw [hg]
    simp only [addChild, Option.map_some, Option.bind_some, hs]
    rw [ih (cs' ++ [c]) (by simpa using hn) (fun d hd => hc d (by simp [hd]))]
    simp

theorem readChildren_product (n : Nat) (i : Nat) (cs' : List Nat) (A B : List (Option (Kind Nat F))) (hi : A.length = i)
    (hn : (A ++ some (Kind.product (F := F) cs') :: B).length = n) (cs : List Nat) (hc : ∀ c ∈ cs, c < n) :
    readChildren (A ++ some (.product cs') :: B) (cs, i) = some (A ++ some (.product (cs' ++ cs)) :: B) := by
  induction cs generalizing cs' with
  | nil => simp [readChildren]
  | cons c cs ih =>
    rw [readChildren_cons, if_pos (by rw [hn]; exact hc c (by simp))]
    have hg : (A ++ some (Kind.product (F := F) cs') :: B)[i]? = some (some (.product cs')) := by
      rw [List.getElem?_append_right (by omega)]; simp [hi]
    have hs : (A ++ some (Kind.product (F := F) cs') :: B).set i (some (.product (cs' ++ [c]))) = A ++ some (Kind.product (F := F) (cs' ++ [c])) :: B := by
      rw [List.set_append_right _ _ (by omega)]; simp [hi]
    rw [hg]
    simp only [addChild, Option.map_some, Option.bind_some, hs]
    rw [ih (cs' ++ [c]) (by simpa using hn) (fun d hd => hc d (by simp [hd]))]
    simp

theorem readChildren_fold [GoFloat F] (f6 : F → F) (N : Net ι F) (l0 : List ι) (hch : ∀ z ∈ l0, ∀ c ∈ N.ch z, c ∈ l0) :
    ∀ (l done : List ι), l0 = done ++ l →
    ((l.map (fun z => (N.ch z).map l0.idxOf)).zipIdx done.length).foldlM readChildren
      (done.map (fun z => some (placed f6 N l0 z)) ++ l.map (fun z => some (bare (storedKind f6 (N.kind z))))) =
    some (l0.map (fun z => some (placed f6 N l0 z))) := by
  intro l
  induction l with
  | nil => intro done e; simp [e]
  | cons z l ih =>
    intro done e
    have hz : z ∈ l0 := by rw [e]; simp
    have hlt : ∀ c ∈ (N.ch z).map l0.idxOf, c < l0.length := by
      intro c hc
      obtain ⟨d, hd, rfl⟩ := List.mem_map.1 hc
      exact List.idxOf_lt_length_of_mem (hch z hz d hd)
    rw [List.map_cons, List.map_cons, List.zipIdx_cons, List.foldlM_cons]
    have hlen : ∀ k : Option (Kind Nat F), (done.map (fun z => some (placed f6 N l0 z)) ++ k :: l.map (fun z => some (bare (storedKind f6 (N.kind z))))).length = l0.length := by
      intro k; simp [e]
    have key : ∀ A B : List (Option (Kind Nat F)), A.length = done.length → (∀ k, (A ++ k :: B).length = l0.length) →
        readChildren (A ++ some (bare (storedKind f6 (N.kind z))) :: B) ((N.ch z).map l0.idxOf, done.length) = some (A ++ some (placed f6 N l0 z) :: B) := by
      intro A B hA hAB
      cases hk : N.kind z with
      | sum cs w =>
        have hc : N.ch z = cs := by simp [Net.ch, hk]
        rw [hc] at hlt ⊢
        simp only [storedKind, bare, placed, hk, relabel]
        rw [readChildren_sum l0.length _ _ _ _ _ hA (hAB _) _ hlt]; simp
      | product cs =>
        have hc : N.ch z = cs := by simp [Net.ch, hk]
        rw [hc] at hlt ⊢
        simp only [storedKind, bare, placed, hk, relabel]
        rw [readChildren_product l0.length _ _ _ _ hA (hAB _) _ hlt]; simp
      | leaf k =>
        have hc : N.ch z = [] := by simp [Net.ch, hk]
        rw [hc]
        cases k <;> simp [storedKind, bare, placed, hk, readChildren, relabel]
    rw [key _ _ (by simp) hlen]
    simp only [Option.bind_eq_bind, Option.bind_some]
    have := ih (done ++ [z]) (by simp [e])
    simpa using this

/-- What `Unmarshal` makes of what `Marshal` wrote. -/
theorem unmarshal_marshal [GoFloat F] (f6 : F → F) (N : Net ι F) (S : ι) (hac : Acyclic N.ch) (hso : SiblingOrdered N.ch S) (hn : (N.order S).length < 4294967296) :
    unmarshal (marshal f6 N S) = some ((N.order S).map (fun z => some (placed f6 N (N.order S) z)), (N.order S).length - 1) := by
  rw [marshal_eq f6 N S hac hso]
  have hol := N.order_lists S
  generalize N.order S = l at *
  unfold unmarshal
  dsimp only
  rw [getUint32_putUint32 hn, if_neg (by simp)]
  have hS : S ∈ l := (hol.2 S).2 Relation.ReflTransGen.refl
  have h1 := readNodes_fold f6 N l []
  simp only [List.length_nil, List.map_nil, List.nil_append] at h1
  rw [List.take_of_length_le (by simp), h1]
  simp only [Option.bind_some]
  have h2 := readChildren_fold f6 N l (fun z hz c hc => (hol.2 c).2 (((hol.2 z).1 hz).tail hc)) l [] rfl
  simp only [List.length_nil, List.map_nil, List.nil_append] at h2
  rw [h2]
  simp only [Option.bind_some]
  rw [if_neg (by intro h; rw [List.length_eq_zero_iff.1 h] at hS; simp at hS)]

theorem childrenFirst_reach {ch : ι → List ι} {A B : List ι} {S : ι} (h : ChildrenFirst ch (A ++ S :: B)) {x : ι} (hx : Reach ch S x) : x ∈ A ++ [S] := by
  induction hx with
  | refl => simp
  | @tail y z _ hc ih =>
    rcases List.mem_append.1 ih with hy | hy
    · obtain ⟨A1, A2, rfl⟩ := List.append_of_mem hy
      have := h A1 y (A2 ++ S :: B) (by simp) z hc
      simp [this]
    · simp at hy; subst hy
      have := h A y B rfl z hc
      simp [this]

/-- In a dependency ordering the root comes last. -/
theorem order_last {ch : ι → List ι} {l : List ι} {S : ι} (hol : ListsReachable ch S l) (h : ChildrenFirst ch l) : l[l.length - 1]? = some S := by
  obtain ⟨A, B, rfl⟩ := List.append_of_mem ((hol.2 S).2 Relation.ReflTransGen.refl)
  cases B with
  | nil => simp
  | cons b B =>
    exfalso
    have hb := childrenFirst_reach h ((hol.2 b).1 (by simp))
    have hnd := hol.1
    rw [show A ++ S :: b :: B = (A ++ [S]) ++ b :: B by simp, List.nodup_append] at hnd
    exact hnd.2.2 b hb b (by simp) rfl

theorem relabel_finKind {k : Kind ι F} {l : List ι} {n : Nat} (hn : n = l.length) (f : Fin n → ι) (hf : ∀ i : Fin n, f i = l[i.1]'(lt_of_lt_of_eq i.2 hn))
    (hk : ∀ c ∈ (match k with | .sum cs _ => cs | .product cs => cs | .leaf _ => []), c ∈ l) : relabel f (finKind n (relabel l.idxOf k)) = k := by
  have hfin : ∀ cs : List ι, (∀ c ∈ cs, c ∈ l) → ((cs.map l.idxOf).filterMap (fun c => if h : c < n then some (⟨c, h⟩ : Fin n) else none)).map f = cs := by
    intro cs
    induction cs with
    | nil => intro _; rfl
    | cons c cs ih =>
      intro hcs
      have hc : l.idxOf c < l.length := List.idxOf_lt_length_of_mem (hcs c (by simp))
      rw [List.map_cons, List.filterMap_cons, dif_pos (by rw [hn]; exact hc)]
      dsimp only
      rw [List.map_cons, ih (fun d hd => hcs d (by simp [hd])), hf]
      simp
  cases k with
  | sum cs w => simp only [relabel, finKind]; rw [hfin cs hk]
  | product cs => simp only [relabel, finKind]; rw [hfin cs hk]
  | leaf l => rfl

theorem netOf_placed [GoFloat F] (f6 : F → F) (N : Net ι F) (S : ι) (l : List ι) (hol : ListsReachable N.ch S l) (hlast : l[l.length - 1]? = some S)
    (ks : List (Option (Kind Nat F))) (hlen : ks.length = l.length) (hks : ∀ i (h : i < l.length), ks[i]'(by rw [hlen]; exact h) = some (placed f6 N l l[i]))
    (r : Nat) (hr : r = l.length - 1) (h : r < ks.length) : IsCopy (stored f6 N) S (netOf ks) ⟨r, h⟩ := by
  have hch : (stored f6 N).ch = N.ch := by
    funext n
    simp only [Net.ch, stored]
    cases hk : N.kind n with
    | leaf k => cases k <;> rfl
    | _ => rfl
  refine ⟨fun i => l[i.1]'(lt_of_lt_of_eq i.2 hlen), ?_, ?_, ?_, ?_⟩
  · intro i j e
    exact Fin.ext ((hol.1.getElem_inj_iff).1 e)
  · subst hr
    have h' : l.length - 1 < l.length := by rw [← hlen] at h ⊢; exact h
    rw [List.getElem?_eq_getElem h'] at hlast
    simpa using hlast
  · intro x
    rw [hch, ← hol.2 x]
    constructor
    · intro hx
      obtain ⟨i, hi, e⟩ := List.mem_iff_getElem.1 hx
      exact ⟨⟨i, by rw [hlen]; exact hi⟩, e⟩
    · rintro ⟨i, rfl⟩; exact List.getElem_mem _
  · intro i
    have hi : i.1 < l.length := lt_of_lt_of_eq i.2 hlen
    have hz : l[i.1] ∈ l := List.getElem_mem hi
    have hk' : (netOf ks).kind i = finKind ks.length (placed f6 N l l[i.1]) := by
      have : ks[i] = some (placed f6 N l l[i.1]) := hks i.1 hi
      simp only [netOf, this]
    rw [hk']
    refine relabel_finKind hlen _ (fun _ => rfl) ?_
    intro c hc
    have hcN : c ∈ N.ch l[i.1] := by
      rw [← hch]; exact hc
    exact (hol.2 c).2 (((hol.2 _).1 hz).tail hcN)

theorem storedKind_survives [GoFloat F] {f6 : F → F} {k : Kind ι F} (h : Survives f6 k) : storedKind f6 k = k := by
  have hm : ∀ w : List F, (∀ x ∈ w, f6 x = x) → w.map f6 = w := by
    intro w hw
    conv_rhs => rw [← List.map_id w]
    exact List.map_congr_left (fun x hx => by simpa using hw x hx)
  cases k with
  | sum cs w => simp only [storedKind, hm w h]
  | product cs => rfl
  | leaf k =>
    cases k with
    | indicator => rfl
    | gaussian => rfl
    | multinomial sc v pr mi mv =>
      obtain ⟨h1, rfl, h2, h3⟩ := h
      simp only [storedKind, hm pr h1, h2]
      rw [Int.toNat_of_nonneg h3]

/-! ### A copy gives the same results -/

variable [DecidableEq κ] [Fintype κ]

theorem mem_ch_relabel {N : Net ι F} {N' : Net κ F} {f : κ → ι} (h : ∀ i, relabel f (N'.kind i) = N.kind (f i)) (i : κ) : N.ch (f i) = (N'.ch i).map f := by
  unfold Net.ch
  rw [← h i]
  cases N'.kind i <;> rfl

theorem copy_acyclic {N : Net ι F} {N' : Net κ F} {f : κ → ι} (h : ∀ i, relabel f (N'.kind i) = N.kind (f i)) (hac : Acyclic N.ch) : Acyclic N'.ch := by
  obtain ⟨rank, hr⟩ := hac
  refine ⟨fun i => rank (f i), fun i c hc => hr (f i) (f c) ?_⟩
  rw [mem_ch_relabel h]; exact List.mem_map_of_mem hc

theorem mapM_map_comp {α β γ : Type} (f : α → β) (g : β → Option γ) (l : List α) : (l.map f).mapM g = l.mapM (fun a => g (f a)) := by
  induction l with
  | nil => rfl
  | cons a l ih => simp only [List.map_cons, List.mapM_cons, ih]

/-- A map of networks that keeps the kinds of nodes keeps `Value`, `Max` and `ArgMax`. -/
theorem copy_results [GoFloat F] {N : Net ι F} {N' : Net κ F} {f : κ → ι} (h : ∀ i, relabel f (N'.kind i) = N.kind (f i)) (hac : Acyclic N.ch) (I : VarSet) (i : κ) :
    N'.value I i = N.value I (f i) ∧ N'.max I i = N.max I (f i) ∧ N'.argMax I i = N.argMax I (f i) := by
  have hac' := copy_acyclic h hac
  obtain ⟨rank, hr⟩ := id hac'
  induction hk : rank i using Nat.strong_induction_on generalizing i with
  | _ k ih =>
    have hih : ∀ c ∈ N'.ch i, N'.value I c = N.value I (f c) ∧ N'.max I c = N.max I (f c) ∧ N'.argMax I c = N.argMax I (f c) :=
      fun c hc => ih (rank c) (by rw [← hk]; exact hr i c hc) c rfl
    have hmm : ∀ {β : Type} (g' : κ → Option β) (g : ι → Option β) (cs : List κ), (∀ c ∈ cs, g' c = g (f c)) → cs.mapM g' = (cs.map f).mapM g := by
      intro β g' g cs hcs
      rw [mapM_map_comp]
      induction cs with
      | nil => rfl
      | cons c cs ihc => simp only [List.mapM_cons, hcs c (by simp), ihc (fun d hd => hcs d (by simp [hd]))]
    have hi := h i
    rw [Net.value_unfold hac', Net.value_unfold hac, Net.max_unfold hac', Net.max_unfold hac, Net.argMax_unfold hac', Net.argMax_unfold hac]
    unfold Net.valueStep Net.maxStep Net.argMaxStep
    rw [← hi]
    cases hk' : N'.kind i with
    | leaf l => exact ⟨rfl, rfl, rfl⟩
    | product cs =>
      have hc : N'.ch i = cs := by simp [Net.ch, hk']
      rw [hc] at hih
      simp only [relabel]
      rw [hmm _ (N.value I) cs (fun c hc => (hih c hc).1), hmm _ (N.max I) cs (fun c hc => (hih c hc).2.1), hmm _ (N.argMax I) cs (fun c hc => (hih c hc).2.2)]
      exact ⟨rfl, rfl, rfl⟩
    | sum cs w =>
      have hc : N'.ch i = cs := by simp [Net.ch, hk']
      rw [hc] at hih
      simp only [relabel]
      rw [hmm _ (N.value I) cs (fun c hc => (hih c hc).1), hmm _ (N.max I) cs (fun c hc => (hih c hc).2.1)]
      refine ⟨rfl, rfl, ?_⟩
      congr 1
      funext vs
      congr 1
      funext us
      have hz : ∀ (l : List (κ × F)) (mc : Option κ) (mx : F), (∀ p ∈ l, p.1 ∈ cs) → (∀ c, mc = some c → c ∈ cs) →
          argMaxChild (l.map (fun p => (f p.1, p.2))) (mc.map f, mx) = ((argMaxChild l (mc, mx)).1.map f, (argMaxChild l (mc, mx)).2) ∧
          ∀ c, (argMaxChild l (mc, mx)).1 = some c → c ∈ cs := by
        intro l
        induction l with
        | nil => intro mc mx _ h2; exact ⟨rfl, h2⟩
        | cons p l ihl =>
          intro mc mx h1 h2
          obtain ⟨c, m⟩ := p
          rw [List.map_cons, argMaxChild, argMaxChild]
          by_cases hlt : lt mx m = true
          · simp only [hlt, if_true]
            exact ihl (some c) m (fun p hp => h1 p (by simp [hp])) (fun d hd => by simp at hd; subst hd; exact h1 (c, m) (by simp))
          · simp only [hlt]
            exact ihl mc mx (fun p hp => h1 p (by simp [hp])) h2
      obtain ⟨z1, z2⟩ := hz (cs.zip us) none ninf (fun p hp => (List.of_mem_zip hp).1) (by simp)
      have e : (cs.map f).zip us = (cs.zip us).map (fun p => (f p.1, p.2)) := by
        rw [List.zip_map_left]; rfl
      rw [e]
      rw [show ((none : Option ι), (ninf : F)) = ((none : Option κ).map f, (ninf : F)) from rfl, z1]
      generalize argMaxChild (cs.zip us) (none, ninf) = r at z2
      obtain ⟨mc, m⟩ := r
      cases mc with
      | none => rfl
      | some c => simp only [Option.map_some]; rw [(hih c (z2 c rfl)).2.2]

end Graph
end Gospn
