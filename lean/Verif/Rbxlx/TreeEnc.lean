import Verif.Rbxlx.CodecEncode
import Verif.Spec.Tree
import Verif.Spec.Binary
/-!
# What the encoder produces for a tree
-/
namespace Rbxlx
open Go Rbxfile Spec

variable {ρ : Type} [DecidableEq ρ]

/-! ## References -/

/-- The instance `p` has the reference `r`, which is registered for it. -/
def Marked (st : RefState ρ) (p : ρ) (r : Bytes) : Prop :=
  isEmptyReference r = false ∧ st.refs.at r = some p ∧ ∃ a, st.heap.get? p = some a ∧ a.reference = r

theorem Marked.unique {st : RefState ρ} {p : ρ} {r r' : Bytes} (h : Marked st p r) (h' : Marked st p r') : r = r' := by
  obtain ⟨-, -, a, ha, rfl⟩ := h
  obtain ⟨-, -, b, hb, rfl⟩ := h'
  rw [ha] at hb; cases hb; rfl

theorem Marked.inj {st : RefState ρ} {p q : ρ} {r : Bytes} (h : Marked st p r) (h' : Marked st q r) : p = q := by
  have := h.2.1.symm.trans h'.2.1
  exact Option.some.inj this

/-- Heaps that differ in the references of instances only. -/
def SameBut (h h' : Heap ρ) : Prop :=
  ∀ p, ∀ a, h.get? p = some a → ∃ r, h'.get? p = some { a with reference := r }

theorem SameBut.refl (h : Heap ρ) : SameBut h h := fun _ a ha => ⟨a.reference, ha⟩
theorem SameBut.trans {h h' h'' : Heap ρ} (h1 : SameBut h h') (h2 : SameBut h' h'') : SameBut h h'' := by
  intro p a ha
  obtain ⟨r, hr⟩ := h1 p a ha
  obtain ⟨r', hr'⟩ := h2 p _ hr
  exact ⟨r', hr'⟩

theorem getRef_step {gen : Nat → Bytes} (hgen : ∀ k, isEmptyReference (gen k) = false) {fuel : Nat}
    {st st' : RefState ρ} {p : ρ} {r : Bytes} (h : getRef gen fuel st (some p) = .ok (r, st')) :
    Marked st' p r ∧ SameBut st.heap st'.heap ∧ ∀ q s, Marked st q s → Marked st' q s := by
  have sp := getRef_spec hgen h
  obtain ⟨a, ha, ha'⟩ := sp.self
  refine ⟨⟨sp.nonempty, sp.marked, _, ha', rfl⟩, ?_, ?_⟩
  · intro q b hb
    by_cases hq : q = p
    · subst hq
      rw [ha] at hb; cases hb
      exact ⟨r, ha'⟩
    · exact ⟨b.reference, by rw [sp.others q hq]; exact hb⟩
  · rintro q s ⟨h1, h2, b, h3, h4⟩
    refine ⟨h1, sp.mono _ _ h2, ?_⟩
    by_cases hq : q = p
    · subst hq
      rw [ha] at h3; cases h3
      have : r = s := by
        rw [← h4]
        exact sp.kept a ha (by rw [h4]; exact h1) (.inl (by rw [h4]; exact h2))
      exact ⟨_, ha', this⟩
    · exact ⟨b, by rw [sp.others q hq]; exact h3, h4⟩

theorem getRef_refs {gen : Nat → Bytes} {fuel : Nat} {st st' : RefState ρ} {p : ρ} {r : Bytes}
    (h : getRef gen fuel st (some p) = .ok (r, st')) (Q : Bytes → Prop) (hg : ∀ k, Q (gen k))
    (hQ : ∀ p a, st.heap.get? p = some a → Q a.reference) : ∀ p a, st'.heap.get? p = some a → Q a.reference := by
  simp only [getRef] at h
  split at h
  · cases h
  · split at h
    · split at h
      · cases h
      · rename_i ref pos hl
        simp only [Res.ok.injEq, Prod.mk.injEq] at h
        obtain ⟨rfl, rfl⟩ := h
        intro q a ha
        simp only [Map.get?_set] at ha
        split at ha
        · cases ha
          obtain ⟨-, j, -, rfl⟩ := genLoop_some _ _ hl
          exact hg j
        · exact hQ q a ha
    · simp only [Res.ok.injEq, Prod.mk.injEq] at h
      obtain ⟨rfl, rfl⟩ := h
      exact hQ

/-! ## The tags of a tree -/

/-- The sorted names of properties. -/
def names {ν : Type} (props : Map Bytes ν) : List Bytes := Sorter.insertion.run bytesLt props.keys

theorem sortedNames_eq (P : Params) (path : List Nat) {props : Map Bytes (Value ρ)} (h : props.Ok) :
    sortedNames P path props = names props := by
  have hk : (props.keys.map id).Nodup := by rw [List.map_id]; exact h
  exact Sorter.unique P.srt Sorter.insertion id (P.it.perm (1 :: path) props.keys)
    (by simpa using (P.it.perm (1 :: path) props.keys).nodup_iff.2 (by simpa using hk))

theorem mem_names {ν : Type} (props : Map Bytes ν) (n : Bytes) : n ∈ names props ↔ (props.get? n).isSome := by
  rw [Map.get?_isSome]
  exact (Sorter.insertion.perm bytesLt props.keys).mem_iff

theorem nodup_names {ν : Type} {props : Map Bytes ν} (h : props.Ok) : (names props).Nodup :=
  (Sorter.insertion.perm bytesLt props.keys).nodup_iff.2 h

/-- The text of a reference. -/
def refText (R : ρ → Bytes) : Value ρ → Bytes
  | .reference (some q) => R q
  | _ => str "null"

/-- The tag of a property. -/
def propTag (P : Params) (R : ρ → Bytes) (props : Map Bytes (Value ρ)) (n : Bytes) : Option Tag :=
  (props.get? n).bind fun v => (encodeValue P.F P.hash (refText R v) v).map (named n)

/-- The tags of properties. -/
def propTags (P : Params) (R : ρ → Bytes) (props : Map Bytes (Value ρ)) : List Tag :=
  (names props).filterMap (propTag P R props)

/-- The tags of instances, whose references are given by `R`. -/
inductive Items (P : Params) (R : ρ → Bytes) (h : Heap ρ) : List ρ → List Tag → Prop
  | nil : Items P R h [] []
  | cons {p : ρ} {ps : List ρ} {inst : Inst ρ} {kids items : List Tag} : h.get? p = some inst →
      Items P R h inst.children kids → Items P R h ps items →
      Items P R h (p :: ps) (itemTag P inst.className (R p) (propTags P R inst.properties) kids :: items)

/-- What a part of the encoding does to the state. -/
structure Step (gen : Nat → Bytes) (st st' : EncState ρ) : Prop where
  refs : ∀ Q : Bytes → Prop, (∀ k, Q (gen k)) → (∀ p a, st.refs.heap.get? p = some a → Q a.reference) →
    ∀ p a, st'.refs.heap.get? p = some a → Q a.reference
  heap : SameBut st.refs.heap st'.refs.heap
  marked : ∀ p r, Marked st.refs p r → Marked st'.refs p r
  shared : ∀ k s, st.shared.get? k = some s → st'.shared.get? k = some s
  ok : st.shared.Ok → st'.shared.Ok

theorem Step.refl (gen : Nat → Bytes) (st : EncState ρ) : Step gen st st := ⟨fun _ _ h => h, .refl _, fun _ _ h => h, fun _ _ h => h, fun h => h⟩
theorem Step.trans {gen : Nat → Bytes} {a b c : EncState ρ} (h1 : Step gen a b) (h2 : Step gen b c) : Step gen a c :=
  ⟨fun Q hg h => h2.refs Q hg (h1.refs Q hg h), h1.heap.trans h2.heap, fun p r h => h2.marked p r (h1.marked p r h), fun k s h => h2.shared k s (h1.shared k s h),
    fun h => h2.ok (h1.ok h)⟩

/-- The references of a state. -/
def Agrees (R : ρ → Bytes) (st : EncState ρ) : Prop := ∀ p r, Marked st.refs p r → R p = r

theorem Agrees.back {R : ρ → Bytes} {gen : Nat → Bytes} {st st' : EncState ρ} (h : Agrees R st')
    (hs : Step gen st st') : Agrees R st :=
  fun p r hm => h p r (hs.marked p r hm)

theorem encodeProperty_step {P : Params} (hgen : ∀ k, isEmptyReference (P.gen k) = false) {st st' : EncState ρ}
    {v : Value ρ} {t : Option Tag} (h : encodeProperty P st v = .ok (t, st')) :
    Step P.gen st st' ∧ (∀ q, v = .reference (some q) → ∃ r, Marked st'.refs q r) ∧
    (∀ R, Agrees R st' → t = encodeValue P.F P.hash (refText R v) v) ∧
    (∀ s, v = .sharedString s → (st'.shared.get? (P.hash s)).isSome) ∧
    (∀ k s, st'.shared.get? k = some s → st.shared.get? k = some s ∨ (k = P.hash s ∧ v = .sharedString s)) := by
  by_cases h1 : ∃ q, v = .reference (some q)
  · obtain ⟨q, rfl⟩ := h1
    simp only [encodeProperty] at h
    split at h
    · cases h
    · cases h
    · rename_i r refs hr
      simp only [Res.ok.injEq, Prod.mk.injEq] at h
      obtain ⟨rfl, rfl⟩ := h
      obtain ⟨m1, m2, m3⟩ := getRef_step hgen hr
      refine ⟨⟨getRef_refs hr, m2, m3, fun _ _ h => h, fun h => h⟩, ?_, ?_, by simp, fun k s hk => .inl hk⟩
      · rintro q' e; cases e; exact ⟨r, m1⟩
      · intro R hR
        have : R q = r := hR q r m1
        simp [refText, this]
  · by_cases h2 : ∃ s, v = .sharedString s
    · obtain ⟨s, rfl⟩ := h2
      simp only [encodeProperty, Res.ok.injEq, Prod.mk.injEq] at h
      obtain ⟨rfl, rfl⟩ := h
      refine ⟨⟨fun _ _ h => h, .refl _, fun _ _ h => h, ?_, ?_⟩, by simp, fun R _ => rfl, ?_, ?_⟩
      · intro k s' hk
        simp only
        split
        · exact hk
        · rename_i hn
          rw [Map.get?_set_ne _ _ (by rintro rfl; rw [hk] at hn; simp at hn)]
          exact hk
      · intro ho
        simp only
        split
        · exact ho
        · exact Map.ok_set ho _ _
      · rintro s' e
        cases e
        simp only
        split
        · assumption
        · simp
      · intro k s' hk
        simp only at hk
        split at hk
        · exact .inl hk
        · rw [Map.get?_set] at hk
          split at hk
          · cases hk; exact .inr ⟨by assumption, rfl⟩
          · exact .inl hk
    · have e : encodeProperty P st v = .ok (encodeValue P.F P.hash (str "null") v, st) := by
        unfold encodeProperty
        split
        · exact absurd ⟨_, rfl⟩ h1
        · exact absurd ⟨_, rfl⟩ h2
        · rfl
      rw [e] at h
      simp only [Res.ok.injEq, Prod.mk.injEq] at h
      obtain ⟨rfl, rfl⟩ := h
      refine ⟨.refl _ _, fun q hq => absurd ⟨q, hq⟩ h1, ?_, fun s hs => absurd ⟨s, hs⟩ h2, fun k s hk => .inl hk⟩
      intro R _
      have : refText R v = str "null" := by
        unfold refText
        split
        · exact absurd ⟨_, rfl⟩ h1
        · rfl
      rw [this]

theorem encodeProps_step {P : Params} (hgen : ∀ k, isEmptyReference (P.gen k) = false) (props : Map Bytes (Value ρ)) :
    ∀ (ns : List Bytes) {st st' : EncState ρ} {ts : List Tag}, encodeProps P props ns st = .ok (ts, st') →
    Step P.gen st st' ∧ (∀ n ∈ ns, ∀ q, props.get? n = some (.reference (some q)) → ∃ r, Marked st'.refs q r) ∧
    (∀ R, Agrees R st' → ts = ns.filterMap (propTag P R props)) ∧
    (∀ n ∈ ns, ∀ s, props.get? n = some (.sharedString s) → (st'.shared.get? (P.hash s)).isSome) ∧
    (∀ k s, st'.shared.get? k = some s → st.shared.get? k = some s ∨
      (k = P.hash s ∧ ∃ n, props.get? n = some (.sharedString s)))
  | [], st, st', ts, h => by
    simp only [encodeProps, Res.ok.injEq, Prod.mk.injEq] at h
    obtain ⟨rfl, rfl⟩ := h
    exact ⟨.refl _ _, by simp, fun _ _ => rfl, by simp, fun k s hk => .inl hk⟩
  | n :: ns, st, st', ts, h => by
    rw [encodeProps] at h
    cases hv : props.get? n with
    | none =>
      simp only [hv] at h
      obtain ⟨a, b, c, d, e⟩ := encodeProps_step hgen props ns h
      refine ⟨a, ?_, ?_, ?_, e⟩
      · intro m hm q hq
        rcases List.mem_cons.1 hm with rfl | hm
        · rw [hv] at hq; cases hq
        · exact b m hm q hq
      · intro R hR
        rw [List.filterMap_cons]
        simp only [propTag, hv, Option.bind_none]
        exact c R hR
      · intro m hm s hs
        rcases List.mem_cons.1 hm with rfl | hm
        · rw [hv] at hs; cases hs
        · exact d m hm s hs
    | some v =>
      simp only [hv] at h
      split at h
      · cases h
      · cases h
      · rename_i t st1 h1
        split at h
        · cases h
        · cases h
        · rename_i ts' st2 h2
          simp only [Res.ok.injEq, Prod.mk.injEq] at h
          obtain ⟨rfl, rfl⟩ := h
          obtain ⟨a, b, c, d, e⟩ := encodeProperty_step hgen h1
          obtain ⟨a', b', c', d', e'⟩ := encodeProps_step hgen props ns h2
          refine ⟨a.trans a', ?_, ?_, ?_, ?_⟩
          · intro m hm q hq
            rcases List.mem_cons.1 hm with rfl | hm
            · rw [hv] at hq; cases hq
              obtain ⟨r, hr⟩ := b q rfl
              exact ⟨r, a'.marked q r hr⟩
            · exact b' m hm q hq
          · intro R hR
            rw [List.filterMap_cons, c' R hR, c R (hR.back a')]
            simp only [propTag, hv, Option.bind_some]
            cases encodeValue P.F P.hash (refText R v) v <;> rfl
          · intro m hm s hs
            rcases List.mem_cons.1 hm with rfl | hm
            · rw [hv] at hs; cases hs
              obtain ⟨x, hx⟩ := Option.isSome_iff_exists.1 (d s rfl)
              rw [a'.shared _ _ hx]; rfl
            · exact d' m hm s hs
          · intro k s hk
            rcases e' k s hk with hk | hk
            · rcases e k s hk with hk | ⟨rfl, rfl⟩
              · exact .inl hk
              · exact .inr ⟨rfl, n, hv⟩
            · exact .inr hk

/-- What encoding the instances `ps`, listed with those below by `l`, does. -/
structure Encoded (P : Params) (h : Heap ρ) (l : Map ρ (Inst ρ)) (ps : List ρ) (items : List Tag)
    (st st' : EncState ρ) : Prop where
  step : Step P.gen st st'
  marked : ∀ x ∈ l, ∃ r, Marked st'.refs x.1 r
  targets : ∀ x ∈ l, ∀ n q, x.2.properties.get? n = some (.reference (some q)) → ∃ r, Marked st'.refs q r
  items : ∀ R, Agrees R st' → Items P R h ps items
  sharedAll : ∀ s, UsedShared l s → (st'.shared.get? (P.hash s)).isSome
  sharedOnly : ∀ k s, st'.shared.get? k = some s → st.shared.get? k = some s ∨ (k = P.hash s ∧ UsedShared l s)

theorem encodeAll_step {P : Params} (hgen : ∀ k, isEmptyReference (P.gen k) = false) {h : Heap ρ} {ps : List ρ}
    {l : Map ρ (Inst ρ)} (f : Forest h ps l) (hok : ∀ x ∈ l, x.2.properties.Ok) :
    ∀ (fuel : Nat) (path : List Nat) (i : Nat) (st st' : EncState ρ) (items : List Tag), SameBut h st.refs.heap →
    encodeAll (encodeInstance P fuel) path i ps st = .ok (items, st') → Encoded P h l ps items st st' := by
  induction f with
  | nil =>
    intro fuel path i st st' items _ he
    simp only [encodeAll, Res.ok.injEq, Prod.mk.injEq] at he
    obtain ⟨rfl, rfl⟩ := he
    refine ⟨.refl _ _, by simp, by simp, fun _ _ => .nil, ?_, fun k s hk => .inl hk⟩
    rintro s ⟨x, hx, _⟩
    cases hx
  | @cons p ps inst below rest hp f1 f2 ih1 ih2 =>
    intro fuel path i st st' items hsame he
    rw [encodeAll] at he
    split at he
    · cases he
    · cases he
    · rename_i t st1 h1
      split at he
      · cases he
      · cases he
      · rename_i ts st2 h2
        simp only [Res.ok.injEq, Prod.mk.injEq] at he
        obtain ⟨rfl, rfl⟩ := he
        cases fuel with
        | zero => simp [encodeInstance] at h1
        | succ fuel =>
          rw [encodeInstance] at h1
          split at h1
          · cases h1
          · cases h1
          · rename_i ref refs hr
            obtain ⟨m1, m2, m3⟩ := getRef_step hgen hr
            obtain ⟨r0, hr0⟩ := (hsame.trans m2) p inst hp
            have hs1 : Step P.gen st { st with refs := refs } := ⟨getRef_refs hr, m2, m3, fun _ _ h => h, fun h => h⟩
            rw [hr0] at h1
            simp only at h1
            rw [sortedNames_eq P _ (hok (p, inst) (by simp))] at h1
            split at h1
            · cases h1
            · cases h1
            · rename_i props st3 h3
              obtain ⟨a, b, c, d, e⟩ := encodeProps_step hgen inst.properties _ h3
              split at h1
              · cases h1
              · cases h1
              · rename_i kids st4 h4
                simp only [Res.ok.injEq, Prod.mk.injEq] at h1
                obtain ⟨rfl, rfl⟩ := h1
                have k := ih1 (fun x hx => hok x (by simp [hx])) fuel _ _ _ _ _ (hsame.trans (m2.trans a.heap)) h4
                have kr := ih2 (fun x hx => hok x (by simp [hx])) _ _ _ _ _ _
                  (hsame.trans (m2.trans (a.heap.trans k.step.heap))) h2
                have all := hs1.trans (a.trans (k.step.trans kr.step))
                refine ⟨all, ?_, ?_, ?_, ?_, ?_⟩
                · intro x hx
                  simp only [List.mem_cons, List.mem_append] at hx
                  rcases hx with rfl | hx | hx
                  · exact ⟨ref, (a.trans (k.step.trans kr.step)).marked _ _ m1⟩
                  · obtain ⟨r, hr⟩ := k.marked x hx
                    exact ⟨r, kr.step.marked _ _ hr⟩
                  · exact kr.marked x hx
                · intro x hx n q hq
                  simp only [List.mem_cons, List.mem_append] at hx
                  rcases hx with rfl | hx | hx
                  · obtain ⟨r, hr⟩ := b n ((mem_names _ n).2 (by rw [hq]; rfl)) q hq
                    exact ⟨r, (k.step.trans kr.step).marked _ _ hr⟩
                  · obtain ⟨r, hr⟩ := k.targets x hx n q hq
                    exact ⟨r, kr.step.marked _ _ hr⟩
                  · exact kr.targets x hx n q hq
                · intro R hR
                  have e1 := c R (hR.back (k.step.trans kr.step))
                  have e2 : R p = ref := hR p ref ((a.trans (k.step.trans kr.step)).marked _ _ m1)
                  subst e1
                  rw [← e2]
                  exact .cons hp (k.items R (hR.back kr.step)) (kr.items R hR)
                · rintro s ⟨x, hx, n, hn⟩
                  simp only [List.mem_cons, List.mem_append] at hx
                  rcases hx with rfl | hx | hx
                  · obtain ⟨y, hy⟩ := Option.isSome_iff_exists.1 (d n ((mem_names _ n).2 (by rw [hn]; rfl)) s hn)
                    rw [(k.step.trans kr.step).shared _ _ hy]; rfl
                  · obtain ⟨y, hy⟩ := Option.isSome_iff_exists.1 (k.sharedAll s ⟨x, hx, n, hn⟩)
                    rw [kr.step.shared _ _ hy]; rfl
                  · exact kr.sharedAll s ⟨x, hx, n, hn⟩
                · intro key s hk
                  rcases kr.sharedOnly key s hk with hk | ⟨h1, x, hx, hn⟩
                  · rcases k.sharedOnly key s hk with hk | ⟨h1, x, hx, hn⟩
                    · rcases e key s hk with hk | ⟨h1, hn⟩
                      · exact .inl hk
                      · exact .inr ⟨h1, (p, inst), by simp, hn⟩
                    · exact .inr ⟨h1, x, by simp [hx], hn⟩
                  · exact .inr ⟨h1, x, by simp [hx], hn⟩

end Rbxlx
