import Verif.Rbxlx.Resave
/-!
# A tree that has been saved and decoded once
-/
namespace Spec
open Go

theorem normNewlines_cons {b : Byte} (h : b ≠ 13#8) (s : Bytes) : normNewlines (b :: s) = b :: normNewlines s := by
  rw [normNewlines.eq_def]
  split
  · rename_i heq; cases heq; exact absurd rfl h
  · rename_i heq; cases heq; exact absurd rfl h
  · rename_i heq; cases heq; rfl
  · rename_i heq; cases heq

theorem no_cr_normNewlines (s : Bytes) : 13#8 ∉ normNewlines s := by
  induction s using normNewlines.induct with
  | case1 s ih => rw [normNewlines]; simpa using ih
  | case2 s h ih =>
    rw [normNewlines]
    · simpa using ih
    · exact h
  | case3 b s h1 h2 ih =>
    by_cases hb : b = 13#8
    · exact absurd hb (h2 · )
    · rw [normNewlines_cons hb]
      simpa [Ne.symm hb] using ih
  | case4 => simp [normNewlines]

theorem normText_cons (b : Byte) (s : Bytes) : normText (b :: s) =
    if XmlSpace b then b :: normText s else normNewlines (b :: s) := by
  unfold normText
  by_cases h : XmlSpace b
  · simp [h]
  · simp [h]

theorem normText_normText : ∀ s : Bytes, normText (normText s) = normText s
  | [] => rfl
  | b :: s => by
    rw [normText_cons]
    split
    · rename_i h
      rw [normText_cons, if_pos h, normText_normText s]
    · rename_i h
      have hb : b ≠ 13#8 := by rintro rfl; exact h (by decide)
      rw [normNewlines_cons hb, normText_cons, if_neg h, normNewlines_cons hb, normNewlines_of_no_cr (no_cr_normNewlines s)]

theorem prefix_normNewlines : ∀ {w s : Bytes}, 10#8 ∉ w → w <+: normNewlines s → w <+: s
  | [], _, _, _ => List.nil_prefix
  | c :: w, s, hw, h => by
    have hc : c ≠ 10#8 := fun e => hw (by simp [e])
    match s with
    | [] => simp [normNewlines] at h
    | b :: s =>
      by_cases hb : b = 13#8
      · subst hb
        exfalso
        have : ∃ t, normNewlines (13#8 :: s) = 10#8 :: t := by
          rw [normNewlines.eq_def]
          split
          · exact ⟨_, rfl⟩
          · exact ⟨_, rfl⟩
          · rename_i h1 h2 heq; cases heq; exact absurd rfl h2
          · rename_i heq; cases heq
        obtain ⟨t, ht⟩ := this
        rw [ht, List.cons_prefix_cons] at h
        exact hc h.1
      · rw [normNewlines_cons hb, List.cons_prefix_cons] at h
        rw [List.cons_prefix_cons]
        exact ⟨h.1, prefix_normNewlines (fun e => hw (by simp [e])) h.2⟩

theorem infix_normNewlines {w : Bytes} (hw : 10#8 ∉ w) (hn : w ≠ []) (s : Bytes) : w <:+: normNewlines s → w <:+: s := by
  induction s using normNewlines.induct with
  | case1 s ih =>
    rw [normNewlines]
    intro h
    rcases List.infix_cons_iff.1 h with h | h
    · exfalso
      match w with
      | [] => exact hn rfl
      | c :: w => rw [List.cons_prefix_cons] at h; exact hw (by simp [h.1])
    · exact ((ih h).trans (List.suffix_cons _ _).isInfix).trans (List.suffix_cons _ _).isInfix
  | case2 s h ih =>
    rw [normNewlines]
    · intro h
      rcases List.infix_cons_iff.1 h with h | h
      · exfalso
        match w with
        | [] => exact hn rfl
        | c :: w => rw [List.cons_prefix_cons] at h; exact hw (by simp [h.1])
      · exact (ih h).trans (List.suffix_cons _ _).isInfix
    · exact h
  | case3 b s h1 h2 ih =>
    by_cases hb : b = 13#8
    · exact absurd hb (h2 · )
    · intro h
      rw [normNewlines_cons hb] at h
      rcases List.infix_cons_iff.1 h with h | h
      · rw [← normNewlines_cons hb] at h
        exact (prefix_normNewlines hw h).isInfix
      · exact (ih h).trans (List.suffix_cons _ _).isInfix
  | case4 => simp [normNewlines]

theorem infix_normText {w : Bytes} (hw : ∀ b ∈ w, ¬ XmlSpace b) (hn : w ≠ []) : ∀ s : Bytes, w <:+: normText s → w <:+: s
  | [], h => h
  | b :: s, h => by
    have h10 : 10#8 ∉ w := fun hm => hw _ hm (by decide)
    rw [normText_cons] at h
    split at h
    · rename_i hs
      rcases List.infix_cons_iff.1 h with h | h
      · exfalso
        match w with
        | [] => exact hn rfl
        | c :: w =>
          rw [List.cons_prefix_cons] at h
          exact hw c (by simp) (h.1 ▸ hs)
      · exact (infix_normText hw hn s h).trans (List.suffix_cons _ _).isInfix
    · exact infix_normNewlines h10 hn _ h

end Spec

namespace Rbxlx
open Go Rbxfile Spec

/-- No double is read from what is written for a double as the one that is not stable. -/
theorem back64_settled (f : F64) : (back64 goFloat f).toNat % 2 ^ 63 ≠ 202402254 := by
  have k1 : back64 goFloat 202402254#64 ≠ 202402254#64 ∧ (back64 goFloat 202402254#64).toNat % 2 ^ 63 ≠ 202402254 := by decide +kernel
  have k2 : back64 goFloat 9223372037057178062#64 ≠ 9223372037057178062#64 ∧
    (back64 goFloat 9223372037057178062#64).toNat % 2 ^ 63 ≠ 202402254 := by decide +kernel
  have split : ∀ g : F64, g.toNat % 2 ^ 63 = 202402254 → g = 202402254#64 ∨ g = 9223372037057178062#64 := by
    intro g hg
    have := g.isLt
    rcases (by omega : g.toNat = 202402254 ∨ g.toNat = 9223372037057178062) with h | h
    · exact .inl (BitVec.eq_of_toNat_eq h)
    · exact .inr (BitVec.eq_of_toNat_eq h)
  intro h
  by_cases hf : f.toNat % 2 ^ 63 = 202402254
  · rcases split f hf with rfl | rfl
    · exact k1.2 h
    · exact k2.2 h
  · have e := goFloat_stable.double f hf
    have e2 : back64 goFloat (back64 goFloat f) = back64 goFloat f := by
      unfold back64 at e ⊢
      simp only [e]
    rcases split _ h with hu | hu <;> rw [hu] at e2
    · exact k1.1 e2
    · exact k2.1 e2

variable {ρ : Type} [DecidableEq ρ]

/-- Decoded values are settled. -/
theorem final_settled {d ex : Bool} {φ : ρ → Option Nat} {v : Value ρ} {w : Value Nat}
    (h : finalValue goFloat d ex φ v = some w) : Settled w := by
  cases v with
  | reference p =>
    cases p with
    | none => simp only [finalValue, backValue, Option.some.injEq] at h; subst h; trivial
    | some p => simp only [finalValue, Option.some.injEq] at h; subst h; trivial
  | optional t o =>
    cases o with
    | none => simp only [finalValue, backValue, Option.some.injEq] at h; subst h; trivial
    | some x =>
      by_cases hx : ∃ p r, x = .cframe p r
      · obtain ⟨p, r, rfl⟩ := hx
        simp only [finalValue, backValue] at h
        split at h
        · rename_i ht; cases h; exact ht
        · cases h
      · have e1 : finalValue goFloat d ex φ (.optional t (some x)) = some (.optional (if t = .optional then .invalid else t) none) := by
          cases x <;> first | rfl | exact absurd ⟨_, _, rfl⟩ hx
        rw [e1] at h; cases h; trivial
  | string s => simp only [finalValue, backValue, Option.some.injEq] at h; subst h; exact normText_normText s
  | protectedString s => simp only [finalValue, backValue, Option.some.injEq] at h; subst h; exact normText_normText s
  | content s => simp only [finalValue, backValue, Option.some.injEq] at h; subst h; exact normText_normText s
  | token n =>
    simp only [finalValue, backValue, Option.some.injEq] at h; subst h
    show BitVec.toNat (if n.toNat < 2 ^ 31 then n else 0x7fffffff#32) < 2 ^ 31
    split
    · assumption
    · decide
  | double f => simp only [finalValue, backValue, Option.some.injEq] at h; subst h; exact back64_settled f
  | physicalProperties c => simp only [finalValue, backValue] at h; split at h <;> cases h <;> trivial
  | font fam wt st c =>
    simp only [finalValue, backValue] at h
    split at h
    · rename_i h1
      split at h
      · rename_i h2
        cases h
        exact ⟨h1, h2, normText_normText _, normText_normText _⟩
      · split at h <;> cases h
        exact ⟨by decide, by decide, rfl, rfl⟩
    · cases h
      exact ⟨by decide, by decide, normText_normText _, normText_normText _⟩
  | _ => simp only [finalValue, backValue, Option.some.injEq] at h; subst h; trivial

theorem final_protected {F : FloatText} {d ex : Bool} {φ : ρ → Option Nat} {v : Value ρ} {s : Bytes}
    (h : finalValue F d ex φ v = some (.protectedString s)) : ∃ t, v = .protectedString t ∧ s = normText t := by
  cases v with
  | protectedString t => simp only [finalValue, backValue, Option.some.injEq, Value.protectedString.injEq] at h; exact ⟨t, rfl, h.symm⟩
  | reference q => cases q <;> simp [finalValue, backValue] at h
  | optional t o =>
    cases o with
    | none => simp [finalValue, backValue] at h
    | some x => cases x <;> simp [finalValue, backValue] at h
  | physicalProperties => simp only [finalValue, backValue] at h; split at h <;> simp at h
  | font =>
    simp only [finalValue, backValue] at h
    split at h
    · split at h
      · simp at h
      · split at h <;> simp at h
    · simp at h
  | _ => simp [finalValue, backValue] at h

theorem final_excluded {F : FloatText} {d : Bool} {φ : ρ → Option Nat} {v : Value ρ} {q : Nat} :
    ¬ finalValue F d true φ v = some (.reference (some q)) := by
  intro h
  cases v with
  | reference p => cases p <;> simp [finalValue, backValue] at h
  | optional t o =>
    cases o with
    | none => simp [finalValue, backValue] at h
    | some x => cases x <;> simp [finalValue, backValue] at h
  | physicalProperties => simp only [finalValue, backValue] at h; split at h <;> simp at h
  | font =>
    simp only [finalValue, backValue] at h
    split at h
    · split at h
      · simp at h
      · split at h <;> simp at h
    · simp at h
  | _ => simp [finalValue, backValue] at h

/-- The decoded tree can be saved and decoded again. -/
theorem Decoded.writable {P Q : Params} {L : Layout} {h : Heap ρ} {root : Root ρ} {l : Map ρ (Inst ρ)}
    (hw : Writable P L h root l) (hq : SameSettings P Q) (hgen : ∀ k, isEmptyReference (Q.gen k) = false ∧ 13#8 ∉ Q.gen k)
    {d : Bool} {b : Bytes} {h1 : Heap ρ} (he : encode P L h root = .ok (b, h1))
    {h2 : Heap Nat} {root2 : Root Nat} (hd : decode P.F d b = .ok (h2, root2)) (D : Decoded P d root l h1 h2 root2)
    (ht2 : Trees h2 root2.instances h2) (hm2 : root2.metadata.Ok) : Writable Q L h2 root2 h2 := by
  have hok2 := decode_okHeap hd
  have hcr : ∀ p a, h1.get? p = some a → 13#8 ∉ a.reference := by
    obtain ⟨items, st, ea, rfl, -⟩ := encode_ok he
    have E := encodeAll_step (fun k => (hw.generated k).1) hw.trees.1 hw.properties _ _ _ _ _ _ (SameBut.refl h) ea
    exact E.step.refs (fun r => 13#8 ∉ r) (fun k => (hw.generated k).2) hw.references
  have back : ∀ q inst', h2.get? q = some inst' → ∃ p inst r, (p, inst) ∈ l ∧ h1.get? p = some { inst with reference := r } ∧
      inst'.reference = (if P.excludeReferent then [] else r) ∧
      ∀ n, inst'.properties.get? n = (inst.properties.get? n).bind (finalValue P.F d P.excludeReferent (decodedAs l)) := by
    intro q inst' hq
    obtain ⟨p, hp⟩ := (D.corresp.surjective q).1 (by rw [hq]; rfl)
    have hpl := (D.corresp.defined p).1 (by rw [hp]; rfl)
    obtain ⟨⟨p', inst⟩, hi, hpe⟩ := List.mem_map.1 hpl
    simp only at hpe
    subst hpe
    obtain ⟨q2, inst2, r, e1, e2, e3, -, -, e4, -, -, e5⟩ := D.insts _ inst hi
    rw [hp] at e1; cases e1
    rw [hq] at e2; cases e2
    exact ⟨_, inst, r, hi, e3, e4, e5⟩
  have used : ∀ s, UsedShared h2 s → UsedShared l s := by
    rintro s ⟨⟨q, inst'⟩, hx, n, hn⟩
    obtain ⟨p, inst, r, hi, -, -, e⟩ := back q inst' (Map.get?_of_mem ht2.2 hx)
    simp only at hn
    rw [e n] at hn
    obtain ⟨v, hv, hb⟩ := Option.bind_eq_some_iff.1 hn
    exact ⟨_, hi, n, by rw [hv, final_shared hb]⟩
  exact {
    text := hq.F ▸ hw.text
    trees := ht2
    metadata := hm2
    properties := fun x hx => hok2 x.1 x.2 (Map.get?_of_mem ht2.2 hx)
    generated := hgen
    references := by
      intro q inst' hq'
      obtain ⟨p, inst, r, hi, e1, e2, -⟩ := back q inst' hq'
      rw [e2]
      split
      · simp
      · exact hcr p _ e1
    names := by
      intro x hx n v hv
      obtain ⟨p, inst, r, hi, -, -, e⟩ := back x.1 x.2 (Map.get?_of_mem ht2.2 hx)
      rw [e n] at hv
      obtain ⟨v', hv', -⟩ := Option.bind_eq_some_iff.1 hv
      exact hw.names _ hi n v' hv'
    cdata := by
      intro x hx n s hv
      obtain ⟨p, inst, r, hi, -, -, e⟩ := back x.1 x.2 (Map.get?_of_mem ht2.2 hx)
      rw [e n] at hv
      obtain ⟨v', hv', hb⟩ := Option.bind_eq_some_iff.1 hv
      obtain ⟨t, rfl, rfl⟩ := final_protected hb
      exact fun hin => hw.cdata _ hi n t hv' (infix_normText (by decide) (by decide) t hin)
    collisions := by
      intro s s' hs hs' hh
      rw [hq.hash] at hh
      exact hw.collisions s s' (used s hs) (used s' hs') hh
    pre := hw.pre
    indent := hw.indent
    root := hw.root }

/-- The decoded tree has no values that are not settled. -/
theorem Decoded.settled {P : Params} (hF : P.F = goFloat) {root : Root ρ} {l : Map ρ (Inst ρ)} {d : Bool} {h1 : Heap ρ}
    {h2 : Heap Nat} {root2 : Root Nat} (D : Decoded P d root l h1 h2 root2) (ht2 : Trees h2 root2.instances h2) :
    (∀ x ∈ h2, 13#8 ∉ x.2.className) ∧
    (∀ x ∈ h2, ∀ n v, x.2.properties.get? n = some v → Settled v) ∧
    (∀ x ∈ h2, ∀ n q, x.2.properties.get? n = some (.reference (some q)) → P.excludeReferent = false ∧ q ∈ h2.map Prod.fst) ∧
    ∀ k v, root2.metadata.get? k = some v → 13#8 ∉ k ∧ normText v = v := by
  have back : ∀ x ∈ h2, ∃ inst : Inst ρ, x.2.className = normNewlines inst.className ∧
      ∀ n, x.2.properties.get? n = (inst.properties.get? n).bind (finalValue P.F d P.excludeReferent (decodedAs l)) := by
    intro x hx
    have hq := Map.get?_of_mem ht2.2 hx
    obtain ⟨p, hp⟩ := (D.corresp.surjective x.1).1 (by rw [hq]; rfl)
    have hpl := (D.corresp.defined p).1 (by rw [hp]; rfl)
    obtain ⟨⟨p', inst⟩, hi, hpe⟩ := List.mem_map.1 hpl
    simp only at hpe
    subst hpe
    obtain ⟨q2, inst2, r, e1, e2, -, -, e3, -, -, -, e5⟩ := D.insts _ inst hi
    rw [hp] at e1; cases e1
    rw [hq] at e2; cases e2
    exact ⟨inst, e3, e5⟩
  refine ⟨fun x hx => ?_, fun x hx n v hv => ?_, fun x hx n q hv => ?_, fun k v hk => ?_⟩
  · obtain ⟨inst, e, -⟩ := back x hx
    rw [e]; exact no_cr_normNewlines _
  · obtain ⟨inst, -, e⟩ := back x hx
    rw [e n, hF] at hv
    obtain ⟨v', -, hb⟩ := Option.bind_eq_some_iff.1 hv
    exact final_settled hb
  · obtain ⟨inst, -, e⟩ := back x hx
    rw [e n] at hv
    obtain ⟨v', -, hb⟩ := Option.bind_eq_some_iff.1 hv
    obtain ⟨t, ht⟩ := final_reference hb
    refine ⟨?_, ?_⟩
    · cases hx : P.excludeReferent with
      | false => rfl
      | true => rw [hx] at hb; exact absurd hb final_excluded
    · exact Map.get?_isSome.1 ((D.corresp.surjective q).2 ⟨t, ht⟩)
  · obtain ⟨x, rfl, rfl⟩ := D.metas k v hk
    exact ⟨no_cr_normNewlines _, normText_normText _⟩

end Rbxlx
