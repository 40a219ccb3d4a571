import Verif.Rbxlx.StableFloat
import Verif.Rbxlx.TreeTotal
import Verif.Rbxlx.Order
import Verif.Rbxlx.XmlKept
import Verif.Rbxlx.DecodeOk
import Verif.Spec.Settled
import Mathlib.Data.List.Forall2
/-!
# Saving a decoded XML file again
-/
namespace Rbxlx
open Go Rbxfile Spec

variable {ρ σ : Type} [DecidableEq ρ] [DecidableEq σ]

/-! ## Tags that are written in the same way -/

/-- The same text is written for the tags. -/
def Alike (t t' : Tag) : Prop := ∀ (d : Doc) (ni : Bool) (depth : Int), writeSub d ni depth t = writeSub d ni depth t'

theorem Alike.refl (t : Tag) : Alike t t := fun _ _ _ => rfl

theorem writeTags_alike {ts ts' : List Tag} (h : List.Forall₂ Alike ts ts') (d : Doc) (nt ni : Bool) :
    ∀ depth, writeTags d nt ni depth ts = writeTags d nt ni depth ts' := by
  induction h with
  | nil => intro _; rfl
  | cons h1 h2 ih =>
    intro depth
    rename_i a b as bs
    have e : as.isEmpty = bs.isEmpty := by cases h2 <;> rfl
    rw [writeTags, writeTags]
    simp only [h1 d ni depth, e, ih]

theorem alike_node {h : Head} {ts ts' : List Tag} (ht : List.Forall₂ Alike ts ts') : Alike ⟨h, ts⟩ ⟨h, ts'⟩ := by
  intro d ni depth
  have e : ts.isEmpty = ts'.isEmpty := by cases ht <;> rfl
  rw [writeSub, writeSub, e]
  congr 1
  funext k
  exact writeTags_alike ht _ _ _ _

/-- A tag without sub-tags is not indented. -/
theorem alike_leaf (h : Head) (x : Bool) : Alike ⟨h, []⟩ ⟨{ h with noIndent := x }, []⟩ := by
  intro d ni depth
  rw [writeSub, writeSub]
  simp [writeTag, writeTags, writtenEnd]

/-! ## Values -/

/-- Numbers that are read are written like those that were written. -/
structure StableText (F : FloatText) : Prop where
  nine : ∀ f, F.format32 9 (back32 F 9 f) = F.format32 9 f
  six : ∀ f, F.format32 6 (back32 F 6 f) = F.format32 6 f
  double : ∀ f : F64, f.toNat % 2 ^ 63 ≠ 202402254 → F.format64 9 (back64 F f) = F.format64 9 f

theorem goFloat_stable : StableText goFloat := ⟨stable32_9, stable32_6, fun _ => stable64⟩

/-- The tags of a property before and after. -/
def AlikeProp (F : FloatText) (hash : Bytes → Bytes) (R : ρ → Bytes) (R' : σ → Bytes) (v : Value ρ) (w : Value σ) : Prop :=
  ∃ t t', encodeValue F hash (refText R v) v = some t ∧ encodeValue F hash (refText R' w) w = some t' ∧
    ∀ n, Alike (named n t) (named n t')

theorem AlikeProp.same {F : FloatText} {hash : Bytes → Bytes} {R : ρ → Bytes} {R' : σ → Bytes} {v : Value ρ} {w : Value σ} {t : Tag}
    (h1 : encodeValue F hash (refText R v) v = some t) (h2 : encodeValue F hash (refText R' w) w = some t) :
    AlikeProp F hash R R' v w := ⟨t, t, h1, h2, fun _ => .refl _⟩

section
variable {F : FloatText} (hF : StableText F)
include hF

theorem encodeFloat_back (f : F32) : encodeFloat F (back32 F 9 f) = encodeFloat F f := by
  unfold encodeFloat; rw [hF.nine]

theorem seqFloat_back (f : F32) : seqFloat F (back32 F 6 f) = seqFloat F f := by
  unfold seqFloat encodeFloatPrec; rw [hF.six]

theorem numbers_back (ks : List NumberKeypoint) : numbersText F (ks.map (backNumber F)) = numbersText F ks := by
  induction ks with
  | nil => rfl
  | cons k ks ih => simp only [List.map_cons, numbersText, backNumber, seqFloat_back hF, ih]

theorem colors_back (ks : List ColorKeypoint) : colorsText F (ks.map (backColor F)) = colorsText F ks := by
  induction ks with
  | nil => rfl
  | cons k ks ih => simp only [List.map_cons, colorsText, backColor, seqFloat_back hF, ih]

theorem xyz_back (v : Vector3) : xyzTags F (back3 F v) = xyzTags F v := by
  simp only [xyzTags, back3, encodeFloat_back hF]

theorem xy_back (v : Vector2) : xyTags F (back2 F v) = xyTags F v := by
  simp only [xyTags, back2, encodeFloat_back hF]

theorem cframeTags_back (p : Vector3) (r : Matrix) :
    cframeTags F (back3 F p) (backM F r) = cframeTags F p r := by
  simp only [cframeTags, back3, backM, encodeFloat_back hF]

/-- What is read for a value is written in the same way. -/
theorem settled_back (hash : Bytes → Bytes) (d ex : Bool) (φ : ρ → Option Nat) (R : ρ → Bytes) (R' : Nat → Bytes)
    {v : Value ρ} (hs : Settled v)
    (hr : ∀ q, v = .reference (some q) → ex = false ∧ ∃ q', φ q = some q' ∧ R' q' = R q) :
    ∃ w, finalValue F d ex φ v = some w ∧ AlikeProp F hash R R' v w := by
  cases v with
  | optional t o =>
    have hname : getCanonTag (if t = .optional then .invalid else t) true = getCanonTag t true := by
      split
      · rename_i h; subst h; rfl
      · rfl
    cases o with
    | none =>
      refine ⟨_, rfl, .same rfl ?_⟩
      simp only [encodeValue, hname]
    | some x =>
      by_cases hx : ∃ p r, x = .cframe p r
      · obtain ⟨p, r, rfl⟩ := hx
        obtain rfl : t = .cframe := hs
        refine ⟨.optional .cframe (some (.cframe (back3 F p) (backM F r))), rfl, .same rfl ?_⟩
        simp only [encodeValue, cframeTags_back hF]
      · have e1 : finalValue F d ex φ (.optional t (some x)) = some (.optional (if t = .optional then .invalid else t) none) := by
          cases x <;> first | rfl | exact absurd ⟨_, _, rfl⟩ hx
        have e2 : encodeValue F hash (refText R (.optional t (some x))) (.optional t (some x)) =
            some (node (getCanonTag t true) []) := by
          cases x <;> first | rfl | exact absurd ⟨_, _, rfl⟩ hx
        refine ⟨_, e1, node (getCanonTag t true) [], _, e2, rfl, ?_⟩
        intro n
        rw [hname]
        exact alike_leaf _ true
  | reference q =>
    cases q with
    | none => exact ⟨_, rfl, .same rfl rfl⟩
    | some q =>
      obtain ⟨rfl, q', h1, h2⟩ := hr q rfl
      refine ⟨_, rfl, .same rfl ?_⟩
      simp only [h1, Bool.false_eq_true, if_false, refText, encodeValue, h2]
  | string s =>
    have hs : normText s = s := hs
    refine ⟨_, rfl, .same rfl ?_⟩
    rw [hs]; rfl
  | protectedString s =>
    have hs : normText s = s := hs
    refine ⟨_, rfl, .same rfl ?_⟩
    rw [hs]; rfl
  | content s =>
    have hs : normText s = s := hs
    refine ⟨_, rfl, .same rfl ?_⟩
    rw [hs]; rfl
  | token x =>
    have hs : x.toNat < 2 ^ 31 := hs
    refine ⟨_, rfl, .same rfl ?_⟩
    rw [if_pos hs]; rfl
  | brickColor x =>
    have hs : x.toNat < 2 ^ 31 := hs
    refine ⟨_, rfl, .same rfl ?_⟩
    rw [if_pos hs]
    have : x.toInt = (x.toNat : Int) := by rw [BitVec.toInt_eq_toNat_of_lt (by omega)]
    simp only [encodeValue, this, formatInt, Int.natAbs_natCast]
    rw [if_neg (by omega)]
  | double f =>
    have hs : f.toNat % 2 ^ 63 ≠ 202402254 := hs
    refine ⟨_, rfl, .same rfl ?_⟩
    simp only [encodeValue, encodeDouble, hF.double f hs]
  | font fam w st c =>
    obtain ⟨h1, h2, h3, h4⟩ : w.toNat < 2 ^ 15 ∧ st.toNat ≤ 1 ∧ normText fam = fam ∧ normText c = c := hs
    refine ⟨.font fam w st c, ?_, .same rfl rfl⟩
    simp only [finalValue, backValue, h1, h2, if_true, h3, h4]
  | physicalProperties c dn f e fw ew =>
    cases c
    · exact ⟨_, rfl, .same rfl rfl⟩
    · refine ⟨_, rfl, .same rfl ?_⟩
      simp only [if_true, encodeValue, encodeFloat_back hF]
  | float f => exact ⟨_, rfl, .same rfl (by simp only [encodeValue, encodeFloat_back hF])⟩
  | udim f => exact ⟨_, rfl, .same rfl (by simp only [encodeValue, encodeFloat_back hF])⟩
  | udim2 f => exact ⟨_, rfl, .same rfl (by simp only [encodeValue, encodeFloat_back hF])⟩
  | color3 f => exact ⟨_, rfl, .same rfl (by simp only [encodeValue, encodeFloat_back hF])⟩
  | ray f => exact ⟨_, rfl, .same rfl (by simp only [encodeValue, xyz_back hF])⟩
  | vector2 f => exact ⟨_, rfl, .same rfl (by simp only [encodeValue, xy_back hF])⟩
  | vector3 f => exact ⟨_, rfl, .same rfl (by simp only [encodeValue, xyz_back hF])⟩
  | cframe f => exact ⟨_, rfl, .same rfl (by simp only [encodeValue, cframeTags_back hF])⟩
  | rect f => exact ⟨_, rfl, .same rfl (by simp only [encodeValue, xy_back hF])⟩
  | numberRange f => exact ⟨_, rfl, .same rfl (by simp only [encodeValue, seqFloat_back hF])⟩
  | numberSequence f => exact ⟨_, rfl, .same rfl (by simp only [encodeValue, numbers_back hF])⟩
  | colorSequence f => exact ⟨_, rfl, .same rfl (by simp only [encodeValue, colors_back hF])⟩
  | _ => exact ⟨_, rfl, .same rfl rfl⟩

end


/-! ## References that are kept -/

section
variable {I : RefState ρ → Prop} {P : Params}
  (hI : ∀ st st' p r, I st → getRef P.gen P.attempts st (some p) = .ok (r, st') → I st')
include hI

theorem encodeProperty_inv {st st' : EncState ρ} {v : Value ρ} {t : Option Tag} (hst : I st.refs)
    (h : encodeProperty P st v = .ok (t, st')) : I st'.refs := by
  unfold encodeProperty at h
  split at h
  · split at h
    · cases h
    · cases h
    · rename_i hg
      simp only [Res.ok.injEq, Prod.mk.injEq] at h
      obtain ⟨-, rfl⟩ := h
      exact hI _ _ _ _ hst hg
  · simp only [Res.ok.injEq, Prod.mk.injEq] at h
    obtain ⟨-, rfl⟩ := h
    exact hst
  · simp only [Res.ok.injEq, Prod.mk.injEq] at h
    obtain ⟨-, rfl⟩ := h
    exact hst

theorem encodeProps_inv {props : Map Bytes (Value ρ)} : ∀ {ns : List Bytes} {st st' : EncState ρ}
    {ts : List Tag}, I st.refs → encodeProps P props ns st = .ok (ts, st') → I st'.refs
  | [], st, st', ts, hst, h => by
    simp only [encodeProps, Res.ok.injEq, Prod.mk.injEq] at h
    obtain ⟨-, rfl⟩ := h
    exact hst
  | n :: ns, st, st', ts, hst, h => by
    rw [encodeProps] at h
    split at h
    · exact encodeProps_inv hst h
    · split at h
      · cases h
      · cases h
      · rename_i h1
        split at h
        · cases h
        · cases h
        · rename_i h2
          simp only [Res.ok.injEq, Prod.mk.injEq] at h
          obtain ⟨-, rfl⟩ := h
          exact encodeProps_inv (encodeProperty_inv hI hst h1) h2

omit hI in
theorem encodeAll_inv {f : List Nat → ρ → EncState ρ → Res (Tag × EncState ρ)}
    (hf : ∀ path p st t st', I st.refs → f path p st = .ok (t, st') → I st'.refs) {path : List Nat} :
    ∀ {ps : List ρ} {i : Nat} {st st' : EncState ρ} {ts : List Tag}, I st.refs →
      encodeAll f path i ps st = .ok (ts, st') → I st'.refs
  | [], i, st, st', ts, hst, h => by
    simp only [encodeAll, Res.ok.injEq, Prod.mk.injEq] at h
    obtain ⟨-, rfl⟩ := h
    exact hst
  | p :: ps, i, st, st', ts, hst, h => by
    rw [encodeAll] at h
    split at h
    · cases h
    · cases h
    · rename_i h1
      split at h
      · cases h
      · cases h
      · rename_i h2
        simp only [Res.ok.injEq, Prod.mk.injEq] at h
        obtain ⟨-, rfl⟩ := h
        exact encodeAll_inv hf (hf _ _ _ _ _ hst h1) h2

theorem encodeInstance_inv : ∀ {fuel : Nat} {path : List Nat} {p : ρ} {st st' : EncState ρ} {t : Tag},
    I st.refs → encodeInstance P fuel path p st = .ok (t, st') → I st'.refs
  | 0, _, _, _, _, _, _, h => by cases h
  | fuel + 1, path, p, st, st', t, hst, h => by
    rw [encodeInstance] at h
    split at h
    · cases h
    · cases h
    · rename_i h1
      split at h
      · cases h
      · split at h
        · cases h
        · cases h
        · rename_i h2
          split at h
          · cases h
          · cases h
          · rename_i h3
            simp only [Res.ok.injEq, Prod.mk.injEq] at h
            obtain ⟨-, rfl⟩ := h
            exact encodeAll_inv (fun _ _ _ _ _ => encodeInstance_inv)
              (encodeProps_inv hI (st := ⟨_, st.shared⟩) (hI _ _ _ _ hst h1) h2) h3

end

/-- The references of the instances are those given by `g`. -/
structure Fixed (K : ρ → Prop) (g : ρ → Bytes) (st : RefState ρ) : Prop where
  heap : ∀ p a, st.heap.get? p = some a → K p ∧ a.reference = g p
  refs : ∀ r p, st.refs.at r = some p → K p ∧ g p = r

theorem getRef_fixed {K : ρ → Prop} {g : ρ → Bytes} {gen : Nat → Bytes} (hgen : ∀ k, isEmptyReference (gen k) = false)
    {fuel : Nat} (hinj : ∀ p q, K p → K q → g p = g q → p = q) (hne : ∀ p, K p → isEmptyReference (g p) = false)
    (st st' : RefState ρ) (p : ρ) (r : Bytes) (hst : Fixed K g st) (h : getRef gen fuel st (some p) = .ok (r, st')) :
    Fixed K g st' := by
  have sp := getRef_spec hgen h
  obtain ⟨a, ha, ha'⟩ := sp.self
  obtain ⟨hK, hg⟩ := hst.heap p a ha
  have hr : r = g p := by
    rw [← hg]
    refine sp.kept a ha (by rw [hg]; exact hne p hK) ?_
    cases hat : st.refs.at a.reference with
    | none => exact .inr rfl
    | some q =>
      obtain ⟨h1, h2⟩ := hst.refs _ q hat
      rw [hg] at h2
      exact .inl (by rw [hinj q p h1 hK h2])
  refine ⟨fun q b hb => ?_, fun r' q hq => ?_⟩
  · by_cases hqp : q = p
    · subst hqp
      rw [ha'] at hb; cases hb
      exact ⟨hK, hr⟩
    · rw [sp.others q hqp] at hb
      exact hst.heap q b hb
  · rcases sp.only r' q hq with h1 | ⟨rfl, rfl⟩
    · exact hst.refs r' q h1
    · exact ⟨hK, hr.symm⟩

/-! ## Instances -/

theorem names_perm {ν ν' : Type} {a : Map Bytes ν} {b : Map Bytes ν'} (ha : a.Ok) (hb : b.Ok)
    (h : ∀ n, (b.get? n).isSome = (a.get? n).isSome) : names b = names a := by
  have hp : b.keys.Perm a.keys := by
    refine (List.perm_ext_iff_of_nodup hb ha).2 fun n => ?_
    have h1 := Map.get?_isSome (m := a) (k := n)
    have h2 := Map.get?_isSome (m := b) (k := n)
    show n ∈ b.map Prod.fst ↔ n ∈ a.map Prod.fst
    rw [← h1, ← h2, h]
  exact Sorter.unique Sorter.insertion Sorter.insertion id hp (by rw [List.map_id]; exact hb)

theorem propTags_alike {P Q : Params} (hF : Q.F = P.F) (hh : Q.hash = P.hash) {R : ρ → Bytes} {R' : σ → Bytes}
    {a : Map Bytes (Value ρ)} {b : Map Bytes (Value σ)} (ha : a.Ok) (hb : b.Ok)
    (h : ∀ n v, a.get? n = some v → ∃ w, b.get? n = some w ∧ AlikeProp P.F P.hash R R' v w)
    (h' : ∀ n, a.get? n = none → b.get? n = none) :
    List.Forall₂ Alike (propTags P R a) (propTags Q R' b) := by
  have hn : names b = names a := names_perm ha hb fun n => by
    cases hv : a.get? n with
    | none => rw [h' n hv]; rfl
    | some v =>
      obtain ⟨w, hw, -⟩ := h n v hv
      rw [hw]; rfl
  unfold propTags
  rw [hn]
  induction names a with
  | nil => exact .nil
  | cons n ns ih =>
    rw [List.filterMap_cons, List.filterMap_cons]
    cases hv : a.get? n with
    | none => simp only [propTag, hv, h' n hv, Option.bind_none]; exact ih
    | some v =>
      obtain ⟨w, hw, t, t', h1, h2, h3⟩ := h n v hv
      simp only [propTag, hv, hw, Option.bind_some, hF, hh, h1, h2, Option.map_some]
      exact .cons (h3 n) ih

theorem itemTag_alike {P Q : Params} (hx : Q.excludeReferent = P.excludeReferent) {cls r r' : Bytes} {a a' k k' : List Tag}
    (hr : P.excludeReferent = false → r' = r) (ha : List.Forall₂ Alike a a') (hk : List.Forall₂ Alike k k') :
    Alike (itemTag P cls r a k) (itemTag Q cls r' a' k') := by
  have e : ∀ r : Bytes, setAttrValue [(str "class", cls), (str "referent", r)] (str "referent") [] = [(str "class", cls)] := by
    intro r
    have : ¬ str "class" = str "referent" := by decide
    simp [setAttrValue, List.findIdx?_cons, this]
  have e2 : ∀ as ks, itemTag Q cls r' as ks = itemTag P cls r as ks := by
    intro as ks
    unfold itemTag
    rw [hx]
    cases hb : P.excludeReferent with
    | false => simp [hr hb]
    | true => simp only [if_true, e]
  rw [e2]
  unfold itemTag
  exact alike_node (.cons (alike_node ha) hk)

theorem items_alike {P Q : Params} (hx : Q.excludeReferent = P.excludeReferent) {R : ρ → Bytes} {R' : σ → Bytes}
    {h : Heap ρ} {h2 : Heap σ} {φ : ρ → Option σ}
    (K : ∀ p inst q inst', h.get? p = some inst → φ p = some q → h2.get? q = some inst' →
      inst'.className = inst.className ∧ inst'.children.map some = inst.children.map φ ∧
      (P.excludeReferent = false → R' q = R p) ∧
      List.Forall₂ Alike (propTags P R inst.properties) (propTags Q R' inst'.properties))
    {ps : List ρ} {items : List Tag} (hi : Items P R h ps items) :
    ∀ {ps' : List σ} {items' : List Tag}, Items Q R' h2 ps' items' → ps'.map some = ps.map φ →
      List.Forall₂ Alike items items' := by
  induction hi with
  | nil =>
    intro ps' items' hi' e
    cases ps' with
    | nil => cases hi'; exact .nil
    | cons => simp at e
  | cons hp hk hr ihk ihr =>
    intro ps' items' hi' e
    cases hi' with
    | nil => simp at e
    | cons hp' hk' hr' =>
      simp only [List.map_cons, List.cons.injEq] at e
      obtain ⟨c1, c2, c3, c4⟩ := K _ _ _ _ hp e.1.symm hp'
      rw [c1]
      exact .cons (itemTag_alike hx c3 c4 (ihk hk' c2)) (ihr hr' e.2)

/-! ## The other tags -/

theorem perm_of_get? {ν : Type} {m m' : Map Bytes ν} (h : m.Ok) (h' : m'.Ok) (he : ∀ k, m'.get? k = m.get? k) :
    m'.Perm m := by
  have nd : ∀ {a : Map Bytes ν}, a.Ok → a.Nodup := by
    intro a ha
    exact List.Pairwise.imp (fun hne e => hne (by rw [e])) (List.pairwise_map.1 ha)
  refine (List.perm_ext_iff_of_nodup (nd h') (nd h)).2 ?_
  rintro ⟨k, v⟩
  constructor
  · intro hm
    have := Map.get?_of_mem h' hm
    rw [he] at this
    exact Map.mem_of_get? this
  · intro hm
    have := Map.get?_of_mem h hm
    rw [← he] at this
    exact Map.mem_of_get? this

theorem metaTags_perm (P Q : Params) {m m' : Map Bytes Bytes} (hm : m.Ok) (hm' : m'.Ok)
    (he : ∀ k, m'.get? k = m.get? k) : metaTags Q m' = metaTags P m := by
  have hp := perm_of_get? hm hm' he
  unfold metaTags
  rw [Sorter.unique Q.srt P.srt Prod.fst (((Q.it.perm [0] m').trans hp).trans (P.it.perm [0] m).symm)
    (((Q.it.perm [0] m').map Prod.fst).nodup_iff.2 hm')]

theorem sharedTags_perm (P Q : Params) {m m' : Map Bytes Bytes} (hm : m.Ok) (hm' : m'.Ok)
    (he : ∀ k, m'.get? k = m.get? k) : sharedTags Q m' = sharedTags P m := by
  have hp := perm_of_get? hm hm' he
  have hk : m'.keys.Perm m.keys := hp.map Prod.fst
  have e : Q.srt.run bytesLt (Q.it.run [2] m'.keys) = P.srt.run bytesLt (P.it.run [2] m.keys) :=
    Sorter.unique Q.srt P.srt id (((Q.it.perm [2] m'.keys).trans hk).trans (P.it.perm [2] m.keys).symm)
      (by simpa using (Q.it.perm [2] m'.keys).nodup_iff.2 hm')
  unfold sharedTags
  have hn : (m' = []) = (m = []) := propext ⟨fun h => (h ▸ hp).nil_eq.symm, fun h => (h ▸ hp.symm).nil_eq.symm⟩
  rw [e]
  simp only [he, hn]


/-! ## Saving again -/

theorem writeIndent_root (d : Doc) (r : Option Tag) (x : Int) (nt : Bool) (k : Int) :
    writeIndent { d with root := r } x nt k = writeIndent d x nt k := rfl

mutual
theorem writeTags_root (d : Doc) (r : Option Tag) (nt ni : Bool) : ∀ (k : Int) (ts : List Tag),
    writeTags { d with root := r } nt ni k ts = writeTags d nt ni k ts
  | k, [] => by rw [writeTags, writeTags]
  | k, t :: rest => by
    rw [writeTags, writeTags, writeSub_root d r ni k t]
    simp only [writeTags_root d r nt ni _ rest]
    rfl
theorem writeSub_root (d : Doc) (r : Option Tag) (ni : Bool) : ∀ (k : Int) (t : Tag),
    writeSub { d with root := r } ni k t = writeSub d ni k t
  | k, ⟨h, ts⟩ => by
    rw [writeSub, writeSub]
    simp only [writeTags_root d r false _ _ ts]
    rfl
end

theorem writeTo_alike {L : Layout} {ts ts' : List Tag} (h : List.Forall₂ Alike ts ts') (ind : Bytes) :
    writeTo ⟨L.pre, ind, L.suffix, L.excludeRoot, some ⟨rootHead, ts⟩⟩ =
      writeTo ⟨L.pre, ind, L.suffix, L.excludeRoot, some ⟨rootHead, ts'⟩⟩ := by
  have e : ts.isEmpty = ts'.isEmpty := by cases h <;> rfl
  have hw := fun nt ni depth => writeTags_alike h ⟨L.pre, ind, L.suffix, L.excludeRoot, none⟩ nt ni depth
  have r1 := fun nt ni depth => writeTags_root ⟨L.pre, ind, L.suffix, L.excludeRoot, none⟩ (some ⟨rootHead, ts⟩) nt ni depth ts
  have r2 := fun nt ni depth => writeTags_root ⟨L.pre, ind, L.suffix, L.excludeRoot, none⟩ (some ⟨rootHead, ts'⟩) nt ni depth ts'
  simp only at r1 r2
  unfold writeTo
  simp only [r1, r2, hw, e]
  rfl

theorem alike_refl (ts : List Tag) : List.Forall₂ Alike ts ts := List.forall₂_same.2 fun _ _ => .refl _

theorem encode_ok {P : Params} {L : Layout} {h h1 : Heap ρ} {root : Root ρ} {b : Bytes}
    (he : encode P L h root = .ok (b, h1)) : ∃ items st,
    encodeAll (encodeInstance P (h.length + 1)) [] 0 root.instances ⟨⟨h, [], 0⟩, []⟩ = .ok (items, st) ∧
    st.refs.heap = h1 ∧
    b = writeTo ⟨L.pre, if L.indent = [] && !L.noDefaultIndent then str "\t" else L.indent, L.suffix, L.excludeRoot,
      some ⟨rootHead, (if P.excludeMetadata then [] else metaTags P root.metadata) ++
      (if P.excludeExternal then [] else externalTags) ++ items ++ sharedTags P st.shared⟩⟩ := by
  unfold encode codecEncode at he
  rcases hea : encodeAll (encodeInstance P (h.length + 1)) [] 0 root.instances ⟨⟨h, [], 0⟩, []⟩ with ⟨items, st⟩ | e | _ <;>
    simp only [hea] at he
  · simp only [Res.ok.injEq, Prod.mk.injEq] at he
    exact ⟨items, st, rfl, he.2, he.1.symm⟩
  · cases he
  · cases he

/-- Another encoder with the same settings. -/
structure SameSettings (P Q : Params) : Prop where
  F : Q.F = P.F
  hash : Q.hash = P.hash
  excludeReferent : Q.excludeReferent = P.excludeReferent
  excludeExternal : Q.excludeExternal = P.excludeExternal
  excludeMetadata : Q.excludeMetadata = P.excludeMetadata

theorem final_shared {F : FloatText} {d ex : Bool} {φ : ρ → Option Nat} {v : Value ρ} {s : Bytes}
    (h : finalValue F d ex φ v = some (.sharedString s)) : v = .sharedString s := by
  cases v with
  | sharedString s' => simp only [finalValue, Option.some.injEq, Value.sharedString.injEq] at h; rw [h]
  | reference q => cases q <;> simp [finalValue, backValue] at h
  | optional t o =>
    cases o with
    | none => simp [finalValue, backValue] at h
    | some x => cases x <;> simp [finalValue, backValue] at h
  | physicalProperties => simp only [finalValue, backValue] at h; split at h <;> simp at h
  | font =>
    simp only [finalValue, backValue] at h
    split at h
    · split at h
      · simp at h
      · split at h <;> simp at h
    · simp at h
  | _ => simp [finalValue, backValue] at h

theorem final_reference {F : FloatText} {d ex : Bool} {φ : ρ → Option Nat} {v : Value ρ} {q : Nat}
    (h : finalValue F d ex φ v = some (.reference (some q))) : ∃ t, φ t = some q := by
  cases v with
  | reference p =>
    cases p with
    | none => simp [finalValue, backValue] at h
    | some p =>
      simp only [finalValue, Option.some.injEq, Value.reference.injEq] at h
      split at h
      · cases h
      · exact ⟨p, h⟩
  | optional t o =>
    cases o with
    | none => simp [finalValue, backValue] at h
    | some x => cases x <;> simp [finalValue, backValue] at h
  | physicalProperties => simp only [finalValue, backValue] at h; split at h <;> simp at h
  | font =>
    simp only [finalValue, backValue] at h
    split at h
    · split at h
      · simp at h
      · split at h <;> simp at h
    · simp at h
  | _ => simp [finalValue, backValue] at h

/-- Encoding a tree, decoding the file and encoding the result. -/
theorem resave {P Q : Params} {L : Layout} {h : Heap ρ} {root : Root ρ} {l : Map ρ (Inst ρ)}
    (hw : Writable P L h root l) (hF : StableText P.F) (hq : SameSettings P Q)
    (hgen : ∀ k, isEmptyReference (Q.gen k) = false)
    (hclass : ∀ x ∈ l, 13#8 ∉ x.2.className)
    (hset : ∀ x ∈ l, ∀ n v, x.2.properties.get? n = some v → Settled v)
    (hrefs : ∀ x ∈ l, ∀ n q, x.2.properties.get? n = some (.reference (some q)) →
      P.excludeReferent = false ∧ q ∈ l.map Prod.fst)
    (hmeta : P.excludeMetadata = true ∨ ∀ k v, root.metadata.get? k = some v → 13#8 ∉ k ∧ normText v = v)
    {d : Bool} {b : Bytes} {h1 : Heap ρ} (he : encode P L h root = .ok (b, h1))
    {h2 : Heap Nat} {root2 : Root Nat} (hd : decode P.F d b = .ok (h2, root2))
    (ht2 : Trees h2 root2.instances h2) (hm2 : root2.metadata.Ok)
    {b2 : Bytes} {h3 : Heap Nat} (he2 : encode Q L h2 root2 = .ok (b2, h3)) : b2 = b := by
  obtain ⟨h2', root2', hd', D⟩ := xml_roundtrip hw d he
  rw [hd] at hd'
  cases hd'
  have hok2 := decode_okHeap hd
  obtain ⟨hforest, hl⟩ := hw.trees
  obtain ⟨items, st, ea, rfl, rfl⟩ := encode_ok he
  obtain ⟨items2, st2, ea2, -, rfl⟩ := encode_ok he2
  have E := encodeAll_step (fun k => (hw.generated k).1) hforest hw.properties _ _ _ _ _ _ (SameBut.refl h) ea
  have E2 := encodeAll_step hgen ht2.1 (fun x hx => hok2 x.1 x.2 (Map.get?_of_mem ht2.2 hx)) _ _ _ _ _ _ (SameBut.refl h2) ea2
  -- the references
  let R : ρ → Bytes := fun p => ((st.refs.heap.get? p).map Inst.reference).getD []
  have hR : Agrees R st := by
    rintro p r ⟨-, -, a, ha, rfl⟩
    show ((st.refs.heap.get? p).map Inst.reference).getD [] = _
    rw [ha]; rfl
  let R' : Nat → Bytes := fun p => ((st2.refs.heap.get? p).map Inst.reference).getD []
  have hR' : Agrees R' st2 := by
    rintro p r ⟨-, -, a, ha, rfl⟩
    show ((st2.refs.heap.get? p).map Inst.reference).getD [] = _
    rw [ha]; rfl
  have hmark : ∀ x ∈ l, Marked st.refs x.1 (R x.1) := by
    intro x hx
    obtain ⟨r, hr⟩ := E.marked x hx
    rw [hR _ _ hr]; exact hr
  have hmem : ∀ p q, decodedAs l p = some q → ∃ inst, (p, inst) ∈ l := by
    intro p q hp
    have := (D.corresp.defined p).1 (by rw [hp]; rfl)
    obtain ⟨x, hx, rfl⟩ := List.mem_map.1 this
    exact ⟨x.2, hx⟩
  have hrefs2 : P.excludeReferent = false → ∀ p q, decodedAs l p = some q → R' q = R p := by
    intro hex
    let g : Nat → Bytes := fun q => ((h2.get? q).map Inst.reference).getD []
    have hg : ∀ p q, decodedAs l p = some q → (h2.get? q).isSome ∧ g q = R p := by
      intro p q hp
      obtain ⟨inst, hi⟩ := hmem p q hp
      obtain ⟨q', inst', r, e1, e2, e3, e4, -, e5, -⟩ := D.insts p inst hi
      rw [hp] at e1; cases e1
      refine ⟨by rw [e2]; rfl, ?_⟩
      have : g q = inst'.reference := by show ((h2.get? q).map Inst.reference).getD [] = _; rw [e2]; rfl
      rw [this, e5, hex]
      have : R p = r := by show ((st.refs.heap.get? p).map Inst.reference).getD [] = _; rw [e3]; rfl
      rw [this]; rfl
    have hK : ∀ q, (h2.get? q).isSome → ∃ p inst, (p, inst) ∈ l ∧ decodedAs l p = some q := by
      intro q hq
      obtain ⟨p, hp⟩ := (D.corresp.surjective q).1 hq
      obtain ⟨inst, hi⟩ := hmem p q hp
      exact ⟨p, inst, hi, hp⟩
    have hfix : Fixed (fun q => (h2.get? q).isSome = true) g st2.refs := by
      refine encodeAll_inv (I := Fixed (fun q => (h2.get? q).isSome = true) g)
        (fun _ _ _ _ _ => encodeInstance_inv (fun a b c r => getRef_fixed hgen ?_ ?_ a b c r)) ?_ ea2
      · intro p q hp hq hpq
        obtain ⟨p', i, hi, hp'⟩ := hK p hp
        obtain ⟨q', j, hj, hq'⟩ := hK q hq
        rw [(hg _ _ hp').2, (hg _ _ hq').2] at hpq
        have m1 := hmark _ hi
        have m2 := hmark _ hj
        simp only at m1 m2
        rw [hpq] at m1
        have := m1.inj m2
        subst this
        rw [hp'] at hq'
        exact Option.some.inj hq'
      · intro p hp
        obtain ⟨p', i, hi, hp'⟩ := hK p hp
        rw [(hg _ _ hp').2]
        exact (hmark _ hi).1
      · refine ⟨fun p a ha => ?_, fun r p hp => ?_⟩
        · have ha : h2.get? p = some a := ha
          refine ⟨by rw [ha]; rfl, ?_⟩
          show _ = ((h2.get? p).map Inst.reference).getD []
          rw [ha]; rfl
        · cases hp
    intro p q hp
    obtain ⟨h2s, h2g⟩ := hg p q hp
    rw [← h2g]
    obtain ⟨i, hi⟩ := Option.isSome_iff_exists.1 h2s
    obtain ⟨r, hr⟩ := E2.step.heap q i hi
    have := (hfix.heap q _ hr).2
    show ((st2.refs.heap.get? q).map Inst.reference).getD [] = _
    rw [hr]
    exact this
  -- the values
  have hvals : ∀ x ∈ l, ∀ n v, x.2.properties.get? n = some v →
      ∃ w, finalValue P.F d P.excludeReferent (decodedAs l) v = some w ∧ AlikeProp P.F P.hash R R' v w := by
    intro x hx n v hv
    refine settled_back hF P.hash d P.excludeReferent (decodedAs l) R R' (hset x hx n v hv) ?_
    rintro q rfl
    obtain ⟨h1, h2⟩ := hrefs x hx n q hv
    obtain ⟨q', hq'⟩ := Option.isSome_iff_exists.1 ((D.corresp.defined q).2 h2)
    exact ⟨h1, q', hq', hrefs2 h1 q q' hq'⟩
  have hitems : List.Forall₂ Alike items items2 := by
    refine items_alike (φ := decodedAs l) hq.excludeReferent ?_ (E.items R hR) (E2.items R' hR') D.roots
    intro p inst q inst' hp hφ hq'
    obtain ⟨i, hi⟩ := hmem p q hφ
    have := Rbxl.Forest.get? hforest _ hi
    simp only at this
    rw [hp] at this; cases this
    obtain ⟨q2, inst2, r, e1, e2, -, -, e3, -, -, e4, e5⟩ := D.insts p inst hi
    rw [hφ] at e1; cases e1
    rw [hq'] at e2; cases e2
    refine ⟨by rw [e3, normNewlines_of_no_cr (hclass _ hi)], e4, fun hx => hrefs2 hx p q hφ, ?_⟩
    refine propTags_alike hq.F hq.hash (hw.properties _ hi) (hok2 q inst' hq') ?_ ?_
    · intro n v hv
      obtain ⟨w, hw1, hw2⟩ := hvals _ hi n v hv
      refine ⟨w, ?_, hw2⟩
      rw [e5 n, hv]; exact hw1
    · intro n hn
      rw [e5 n, hn]; rfl
  -- the shared strings
  have hshared : sharedTags Q st2.shared = sharedTags P st.shared := by
    have used : ∀ s, UsedShared h2 s ↔ UsedShared l s := by
      intro s
      constructor
      · rintro ⟨⟨q, inst'⟩, hx, n, hn⟩
        have hq' := Map.get?_of_mem ht2.2 hx
        obtain ⟨p, hp⟩ := (D.corresp.surjective q).1 (by rw [hq']; rfl)
        obtain ⟨inst, hi⟩ := hmem p q hp
        obtain ⟨q2, inst2, r, e1, e2, -, -, -, -, -, -, e5⟩ := D.insts p inst hi
        rw [hp] at e1; cases e1
        rw [hq'] at e2; cases e2
        refine ⟨_, hi, n, ?_⟩
        simp only at hn ⊢
        rw [e5 n] at hn
        obtain ⟨v, hv, hb⟩ := Option.bind_eq_some_iff.1 hn
        rw [hv, final_shared hb]
      · rintro ⟨⟨p, inst⟩, hx, n, hn⟩
        obtain ⟨q2, inst2, r, e1, e2, -, -, -, -, -, -, e5⟩ := D.insts p inst hx
        refine ⟨_, Map.mem_of_get? e2, n, ?_⟩
        simp only at hn ⊢
        rw [e5 n, hn]; rfl
    have is1 : ∀ k s, st.shared.get? k = some s ↔ k = P.hash s ∧ UsedShared l s := by
      intro k s
      constructor
      · intro hk
        rcases E.sharedOnly k s hk with h | h
        · cases h
        · exact h
      · rintro ⟨rfl, hs⟩
        obtain ⟨s', hs'⟩ := Option.isSome_iff_exists.1 (E.sharedAll s hs)
        rcases E.sharedOnly _ s' hs' with h | ⟨h, hu⟩
        · cases h
        · rw [hs', hw.collisions s s' hs hu h]
    have is2 : ∀ k s, st2.shared.get? k = some s ↔ k = P.hash s ∧ UsedShared l s := by
      intro k s
      rw [← used, ← hq.hash]
      constructor
      · intro hk
        rcases E2.sharedOnly k s hk with h | h
        · cases h
        · exact h
      · rintro ⟨rfl, hs⟩
        obtain ⟨s', hs'⟩ := Option.isSome_iff_exists.1 (E2.sharedAll s hs)
        rcases E2.sharedOnly _ s' hs' with h | ⟨h, hu⟩
        · cases h
        · rw [hq.hash] at h
          rw [hs', hw.collisions s s' ((used _).1 hs) ((used _).1 hu) h]
    refine sharedTags_perm P Q (E.step.ok Map.ok_nil) (E2.step.ok Map.ok_nil) fun k => ?_
    refine Option.ext fun s => ?_
    rw [is1, is2]
  -- the metadata
  have hmetadata : (if Q.excludeMetadata then [] else metaTags Q root2.metadata) =
      (if P.excludeMetadata then [] else metaTags P root.metadata) := by
    rw [hq.excludeMetadata]
    rcases hmeta with hm | hm
    · rw [if_pos hm, if_pos hm]
    · split
      · rfl
      · rename_i hx
        refine metaTags_perm P Q hw.metadata hm2 fun k => ?_
        rw [D.metadata (fun k v h => (hm k v h).1) k, if_neg hx]
        cases hk : root.metadata.get? k with
        | none => rfl
        | some v => rw [Option.map_some, (hm k v hk).2]
  rw [hmetadata, hshared, hq.excludeExternal]
  refine (writeTo_alike ?_ _).symm
  exact List.rel_append (List.rel_append (alike_refl _) hitems) (alike_refl _)

end Rbxlx
