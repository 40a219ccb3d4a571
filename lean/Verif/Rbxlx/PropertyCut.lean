import Verif.Rbxlx.PropertyComps
/-!
# Reading the components of a value: integers that cannot be represented
-/
namespace Rbxlx
open Go Rbxfile Spec

/-- The size of the integers that a kind of component is read as. -/
def Comp.intBits : Comp → Option Nat
  | .u8 => some 32
  | .i16 => some 16
  | .i32 => some 32
  | .weight => some 16
  | _ => none

/-- A component of the kind can be read from the tag. -/
def Readable (k : Comp) (s : Tag) : Prop :=
  match k with
  | .style => (fontStyleFromString (getContent s)).2 = true
  | k => ∀ b, k.intBits = some b → (parseInt b (getContent s)).2 ≠ .syntax

/-- The components can be read from the tags, as far as they are there. -/
def AllReadable (c : List (Bytes × Comp)) (ts : List Tag) : Prop :=
  ∀ x ∈ c, ∀ s, firstB ts x.1 = some s → Readable x.2 s

/-- All components are there. -/
def AllThere (c : List (Bytes × Comp)) (ts : List Tag) : Prop := ∀ x ∈ c, firstB ts x.1 ≠ none

theorem readComp_int {F : FloatText} {k : Comp} {b : Nat} (h : k.intBits = some b) (s : Tag) :
    ∃ mk : Int → CompVal, readComp F k s = intComp (parseInt b (getContent s)) mk := by
  cases k <;> simp only [Comp.intBits, Option.some.injEq, reduceCtorEq] at h <;> subst h <;> simp only [readComp] <;> exact ⟨_, rfl⟩

/-- When a component ends the loop. -/
theorem readComp_stop {F : FloatText} {k : Comp} {s : Tag} {ok : Bool} {v : Option CompVal}
    (h : readComp F k s = .stop ok v) :
    (ok = false ∧ ¬ Readable k s) ∨ (ok = true ∧ ∃ b, k.intBits = some b ∧ (parseInt b (getContent s)).2 = .range) := by
  have int : ∀ b, k.intBits = some b → (ok = false ∧ ¬ Readable k s) ∨
      (ok = true ∧ ∃ b, k.intBits = some b ∧ (parseInt b (getContent s)).2 = .range) := by
    intro b hb
    obtain ⟨mk, hm⟩ := readComp_int (F := F) hb s
    rw [hm, intComp] at h
    split at h
    · cases h
    · rename_i hr
      cases h
      exact .inr ⟨rfl, b, hb, hr⟩
    · rename_i hr
      cases h
      refine .inl ⟨rfl, ?_⟩
      intro hread
      cases k <;> simp only [Comp.intBits, Option.some.injEq, reduceCtorEq] at hb
      all_goals
        subst hb
        exact hread _ rfl hr
  cases k
  case u8 | i16 | i32 | weight => exact int _ rfl
  case f32 => cases h
  case tag => cases h
  case style =>
    simp only [readComp] at h
    split at h
    · cases h
    · rename_i hr
      cases h
      exact .inl ⟨rfl, hr⟩

theorem readComp_next {F : FloatText} {k : Comp} {s : Tag} {v : Option CompVal} (h : readComp F k s = .next v) :
    Readable k s ∧ ∀ b, k.intBits = some b → (parseInt b (getContent s)).2 ≠ .range := by
  have int : ∀ b, k.intBits = some b → (parseInt b (getContent s)).2 = .none := by
    intro b hb
    obtain ⟨mk, hm⟩ := readComp_int (F := F) hb s
    rw [hm, intComp] at h
    split at h
    · assumption
    · cases h
    · cases h
  refine ⟨?_, fun b hb => by rw [int b hb]; nofun⟩
  cases k
  case style =>
    simp only [readComp] at h
    split at h
    · assumption
    · cases h
  all_goals
    intro b hb
    rw [int b hb]
    nofun

theorem firstB_append (a b : List Tag) (n : Bytes) : firstB (a ++ b) n = (firstB a n).or (firstB b n) := by
  unfold firstB
  exact List.find?_append

theorem firstB_name {ts : List Tag} {n : Bytes} {s : Tag} (h : firstB ts n = some s) : s.head.startName = n := by
  have := List.find?_some h
  simpa using this

theorem content_eq (t : Tag) : getContent t = tagContent t := by
  unfold getContent tagContent
  cases t.head.cdata <;> rfl

theorem firstTag_eq (ts : List Tag) (n : String) : firstTag ts n = firstB ts (str n) := rfl

/-- Which components are integers, and their size. -/
structure IntNames (bits : Nat) (names : List String) (c : List (Bytes × Comp)) : Prop where
  big : 1 < bits
  nodup : (c.map Prod.fst).Nodup
  ofInt : ∀ n k b, Map.get? c n = some k → k.intBits = some b → b = bits ∧ ∃ m ∈ names, n = str m
  toInt : ∀ n ∈ names, ∃ k, Map.get? c (str n) = some k ∧ k.intBits = some bits

theorem getFrom_true {F : FloatText} {bits : Nat} {names : List String} {c : List (Bytes × Comp)}
    (hi : IntNames bits names c) {t : Tag} {vs : CompVals} (h : getFrom F c t = (true, vs)) :
    ∃ seen cut, Seen bits names t.tags seen cut ∧ AllReadable c seen ∧ (cut = false → AllThere c seen) ∧
      ∀ n, Map.get? vs n = got F c seen n := by
  have hok : Map.Ok c := hi.nodup
  have smooth : ∀ l, Smooth F c [] l → (∀ n ∈ names, ∀ s, firstTag l n = some s → ¬ Overflows bits (tagContent s)) ∧
      AllReadable c l := by
    intro l hl
    constructor
    · intro n hn s hs
      obtain ⟨k, hk, hb⟩ := hi.toInt n hn
      obtain ⟨v, hv⟩ := hl _ k s (by simp) hk hs
      rw [overflows_iff hi.big, ← content_eq]
      exact (readComp_next hv).2 _ hb
    · intro x hx s hs
      obtain ⟨v, hv⟩ := hl x.1 x.2 s (by simp) (Map.get?_of_mem hok hx) hs
      exact (readComp_next hv).1
  rcases getFrom_outcome F c hi.nodup t with ⟨ok, vs', h1, h2, h3, h4⟩ | ⟨pre, s, post, k, ok, v, vs', h1, h2, h3, h4, h5, h6, h7⟩
  · rw [h] at h1
    cases h1
    refine ⟨t.tags, false, ⟨(smooth _ h2).1, rfl⟩, (smooth _ h2).2, ?_, h3⟩
    intro _ x hx
    exact h4.1 rfl x.1 (List.mem_map_of_mem hx)
  · rw [h] at h6
    cases h6
    rcases readComp_stop h4 with ⟨h, -⟩ | ⟨-, b, hb, hr⟩
    · cases h
    · obtain ⟨rfl, m, hm, hn⟩ := hi.ofInt _ _ _ h2 hb
      refine ⟨pre ++ [s], true, ⟨?_, pre, s, post, h1, rfl, m, hm, hn, ?_, ?_⟩, ?_, nofun, h7⟩
      · rw [if_pos rfl, List.dropLast_concat]
        exact (smooth _ h5).1
      · rw [firstTag_eq, ← hn]; exact h3
      · rw [overflows_iff hi.big, ← content_eq]; exact hr
      · intro x hx u hu
        rw [firstB_append] at hu
        rcases hp : firstB pre x.1 with _ | y
        · rw [hp, Option.none_or, firstB_cons] at hu
          split at hu
          · rename_i hs
            cases hu
            have : x.2 = k := by
              have := Map.get?_of_mem hok hx
              rw [← hs, h2] at this
              exact (Option.some.inj this).symm
            rw [this]
            cases k <;> simp only [Comp.intBits, reduceCtorEq] at hb
            all_goals
              intro b' hb'
              have : b' = b := Option.some.inj (hb'.symm.trans hb)
              rw [this, hr]
              nofun
          · cases hu
        · rw [hp, Option.some_or] at hu
          cases hu
          exact (smooth _ h5).2 x hx _ hp

theorem getFrom_of_seen {F : FloatText} {bits : Nat} {names : List String} {c : List (Bytes × Comp)}
    (hi : IntNames bits names c) {t : Tag} {seen : List Tag} {cut : Bool} (hs : Seen bits names t.tags seen cut)
    (hr : AllReadable c seen) (ht : cut = false → AllThere c seen) :
    ∃ vs, getFrom F c t = (true, vs) ∧ ∀ n, Map.get? vs n = got F c seen n := by
  -- A component that ends the loop overflows.
  have stop : ∀ {s k ok v} {l : List Tag}, Map.get? c s.head.startName = some k → readComp F k s = .stop ok v →
      firstB l s.head.startName = some s → AllReadable c l →
      ok = true ∧ ∃ n ∈ names, s.head.startName = str n ∧ Overflows bits (tagContent s) := by
    intro s k ok v l hk hv hl hr
    rcases readComp_stop hv with ⟨-, h⟩ | ⟨h, b, hb, h'⟩
    · exact absurd (hr _ (Map.mem_of_get? hk) s hl) h
    · obtain ⟨rfl, m, hm, hn⟩ := hi.ofInt _ _ _ hk hb
      exact ⟨h, m, hm, hn, (overflows_iff hi.big _).2 (by rw [← content_eq]; exact h')⟩
  have noSmooth : ∀ {l : List Tag} {n : String} {s : Tag}, n ∈ names → firstB l (str n) = some s → Overflows bits (tagContent s) →
      ¬ Smooth F c [] l := by
    intro l n s hn hl ho hsm
    obtain ⟨k, hk, hb⟩ := hi.toInt n hn
    obtain ⟨v, hv⟩ := hsm _ k s (by simp) hk hl
    rw [overflows_iff hi.big, ← content_eq] at ho
    exact (readComp_next hv).2 _ hb ho
  have first_mid : ∀ (a b : List Tag) (s : Tag), firstB a s.head.startName = none →
      firstB (a ++ s :: b) s.head.startName = some s := by
    intro a b s h
    rw [firstB_append, h, Option.none_or, firstB_cons, if_pos rfl]
  obtain ⟨hs1, hs2⟩ := hs
  rcases getFrom_outcome F c hi.nodup t with ⟨ok, vs', h1, h2, h3, h4⟩ | ⟨pre, s, post, k, ok, v, vs', h1, h2, h3, h4, h5, h6, h7⟩
  · cases cut with
    | false =>
      simp only at hs2
      subst hs2
      refine ⟨vs', ?_, h3⟩
      rw [h1, h4.2]
      intro n hn
      obtain ⟨x, hx, rfl⟩ := List.mem_map.1 hn
      exact ht rfl x hx
    | true =>
      obtain ⟨before, last, after, e, -, n, hn, hname, hnone, ho⟩ := hs2
      rw [firstTag_eq, ← hname] at hnone
      have := first_mid before after last hnone
      rw [← e, hname] at this
      exact absurd h2 (noSmooth hn this ho)
  · cases cut with
    | false =>
      simp only at hs2
      subst hs2
      have hf := first_mid pre post s h3
      rw [← h1] at hf
      obtain ⟨-, n, hn, hname, ho⟩ := stop h2 h4 hf hr
      simp only [Bool.false_eq_true, if_false] at hs1
      exact absurd ho (hs1 n hn s (by rw [firstTag_eq, ← hname]; exact hf))
    | true =>
      obtain ⟨before, last, after, e, rfl, n, hn, hname, hnone, ho⟩ := hs2
      rw [firstTag_eq, ← hname] at hnone
      rw [if_pos rfl, List.dropLast_concat] at hs1
      rw [h1] at e
      rcases List.append_eq_append_iff.1 e with ⟨m, hm, hm'⟩ | ⟨m, hm, hm'⟩
      · cases m with
        | nil =>
          simp only [List.append_nil, List.nil_append, List.cons.injEq] at hm hm'
          obtain ⟨rfl, rfl⟩ := hm'
          subst hm
          have hf := first_mid before [] s h3
          obtain ⟨rfl, -⟩ := stop h2 h4 hf hr
          exact ⟨vs', h6, h7⟩
        | cons y m =>
          simp only [List.cons_append, List.cons.injEq] at hm'
          obtain ⟨rfl, -⟩ := hm'
          subst hm
          have hf := first_mid pre m s h3
          have hf' : firstB ((pre ++ s :: m) ++ [last]) s.head.startName = some s := by
            rw [firstB_append, hf, Option.some_or]
          obtain ⟨-, n', hn', hname', ho'⟩ := stop h2 h4 hf' hr
          exact absurd ho' (hs1 n' hn' s (by rw [firstTag_eq, ← hname']; exact hf))
      · cases m with
        | nil =>
          simp only [List.append_nil, List.nil_append, List.cons.injEq] at hm hm'
          obtain ⟨rfl, rfl⟩ := hm'
          subst hm
          have hf := first_mid pre [] last h3
          obtain ⟨rfl, -⟩ := stop h2 h4 hf hr
          exact ⟨vs', h6, h7⟩
        | cons y m =>
          simp only [List.cons_append, List.cons.injEq] at hm'
          obtain ⟨rfl, -⟩ := hm'
          subst hm
          have hf := first_mid before m last hnone
          rw [hname] at hf
          exact absurd h5 (noSmooth hn hf ho)

/-- There are variables with the values that are read. -/
theorem got_vars (F : FloatText) (c : List (Bytes × Comp)) (ts : List Tag) :
    ∃ vs : CompVals, ∀ n, Map.get? vs n = got F c ts n := by
  have key : ∀ l : List (Bytes × Comp), ∃ vs : CompVals, ∀ n, Map.get? vs n = if n ∈ l.map Prod.fst then got F c ts n else none := by
    intro l
    induction l with
    | nil => exact ⟨[], fun n => rfl⟩
    | cons x l ih =>
      obtain ⟨vs, hvs⟩ := ih
      rcases hg : got F c ts x.1 with _ | v
      · refine ⟨vs, fun n => ?_⟩
        rw [hvs]
        by_cases hx : n = x.1
        · subst hx
          rw [hg]
          split <;> split <;> rfl
        · by_cases hl : n ∈ l.map Prod.fst
          · rw [if_pos hl, if_pos (by rw [List.map_cons]; exact List.mem_cons_of_mem _ hl)]
          · rw [if_neg hl, if_neg (by rw [List.map_cons, List.mem_cons]; exact fun h => h.elim hx hl)]
      · refine ⟨Map.set vs x.1 v, fun n => ?_⟩
        rw [Map.get?_set, hvs]
        by_cases hx : n = x.1
        · subst hx
          rw [if_pos rfl, if_pos (by rw [List.map_cons]; exact List.mem_cons_self), hg]
        · rw [if_neg hx]
          by_cases hl : n ∈ l.map Prod.fst
          · rw [if_pos hl, if_pos (by rw [List.map_cons]; exact List.mem_cons_of_mem _ hl)]
          · rw [if_neg hl, if_neg (by rw [List.map_cons, List.mem_cons]; exact fun h => h.elim hx hl)]
  obtain ⟨vs, hvs⟩ := key c
  refine ⟨vs, fun n => ?_⟩
  rw [hvs]
  split
  · rfl
  · rename_i h
    rw [got, Map.get?_eq_none.2 h]

/-- How a value made of components is read. -/
theorem comp_iff {α : Type} {F : FloatText} {bits : Nat} {names : List String} {c : List (Bytes × Comp)}
    (hi : IntNames bits names c) (P : List Tag → Bool → α → Prop) (mk : CompVals → α) (t : Tag) (v : α)
    (hP : ∀ vs seen cut, (∀ n, Map.get? vs n = got F c seen n) →
      (P seen cut v ↔ v = mk vs ∧ AllReadable c seen ∧ (cut = false → AllThere c seen))) :
    (∃ seen cut, Seen bits names t.tags seen cut ∧ P seen cut v) ↔ ∃ vs, getFrom F c t = (true, vs) ∧ v = mk vs := by
  constructor
  · rintro ⟨seen, cut, hs, hp⟩
    obtain ⟨vs0, h0⟩ := got_vars F c seen
    obtain ⟨-, h2, h3⟩ := (hP vs0 seen cut h0).1 hp
    obtain ⟨vs, h4, h5⟩ := getFrom_of_seen (F := F) hi hs h2 h3
    exact ⟨vs, h4, ((hP vs seen cut h5).1 hp).1⟩
  · rintro ⟨vs, h, rfl⟩
    obtain ⟨seen, cut, h1, h2, h3, h4⟩ := getFrom_true hi h
    exact ⟨seen, cut, h1, (hP vs seen cut h4).2 ⟨rfl, h2, h3⟩⟩

/-! ## Single components -/

theorem floatAt_iff {F : FloatText} {c : List (Bytes × Comp)} {seen : List Tag} {cut : Bool} {vs : CompVals} {n : String}
    (hk : Map.get? c (str n) = some .f32) (hv : ∀ n, Map.get? vs n = got F c seen n) (x : F32) :
    FloatAt F seen cut n x ↔ x = vs.f32 (str n) ∧ (cut = false → firstB seen (str n) ≠ none) := by
  unfold FloatAt
  rw [firstTag_eq, CompVals.f32, hv, got, hk]
  rcases firstB seen (str n) with _ | s
  · cases cut <;> simp
  · simp only [Option.bind_some, readComp, CompRes.stored, content_eq]
    cases F.parse32 (tagContent s) <;> simp

theorem intComp_stored (r : Int × NumErr) (mk : Int → CompVal) : (intComp r mk).stored = some (mk r.1) := by
  unfold intComp
  split <;> rfl

theorem intAt_iff {F : FloatText} {c : List (Bytes × Comp)} {seen : List Tag} {cut : Bool} {vs : CompVals} {n : String}
    {k : Comp} {bits w : Nat} {mk : BitVec w → CompVal} {get : Bytes → BitVec w} (hb : 1 < bits)
    (hk : Map.get? c (str n) = some k) (hkb : k.intBits = some bits) (hv : ∀ n, Map.get? vs n = got F c seen n)
    (hm : ∀ s, readComp F k s = intComp (parseInt bits (getContent s)) fun n => mk (BitVec.ofInt w n))
    (hg1 : ∀ n x, Map.get? vs n = some (mk x) → get n = x) (hg0 : ∀ n, Map.get? vs n = none → get n = 0) (x : BitVec w) :
    IntAt bits seen cut n x ↔ x = get (str n) ∧ (∀ s, firstB seen (str n) = some s → Readable k s) ∧
      (cut = false → firstB seen (str n) ≠ none) := by
  have hread : ∀ s, Readable k s ↔ (parseInt bits (getContent s)).2 ≠ .syntax := by
    intro s
    cases k <;> simp only [Comp.intBits, reduceCtorEq, Option.some.injEq] at hkb
    all_goals
      subst hkb
      exact ⟨fun h => h _ rfl, fun h b hb => by cases hb; exact h⟩
  unfold IntAt
  rw [firstTag_eq]
  have h := hv (str n)
  rw [got, hk] at h
  rcases hf : firstB seen (str n) with _ | s
  · rw [hf] at h
    simp only [Option.bind_none] at h
    rw [hg0 _ h]
    cases cut <;> simp
  · rw [hf] at h
    simp only [Option.bind_some, hm, intComp_stored] at h
    rw [hg1 _ _ h]
    simp only [Option.some.injEq, forall_eq', hread, ne_eq, reduceCtorEq, not_false_eq_true, implies_true, and_true]
    rw [saysInt_iff hb, content_eq]
    exact ⟨fun h => ⟨h.2.symm, h.1⟩, fun h => ⟨h.2, h.1.symm⟩⟩

end Rbxlx
