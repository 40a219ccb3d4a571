import Verif.Rbxlx.Document
import Verif.Spec.Xml
/-!
# Reading back escaped text
-/
namespace Rbxlx
open Go Rbxfile

theorem isSpace_iff (b : Byte) : isSpace b = true ↔ Spec.XmlSpace b := by
  simp only [isSpace, Spec.XmlSpace, Bool.or_eq_true, decide_eq_true_eq, ← BitVec.toNat_inj]
  simp
  omega

theorem isSpace_eq (b : Byte) : isSpace b = decide (Spec.XmlSpace b) := by
  rw [Bool.eq_iff_iff, isSpace_iff]; simp

theorem skipSpace_append {ws s : Bytes} (h : ∀ b ∈ ws, isSpace b = true) :
    skipSpace (ws ++ s) = skipSpace s := by
  simp only [skipSpace]
  induction ws with
  | nil => rfl
  | cons b ws ih =>
    rw [List.cons_append, List.dropWhile_cons_of_pos (h b (by simp))]
    exact ih fun c hc => h c (by simp [hc])

theorem skipSpace_cons {b : Byte} {s : Bytes} (h : isSpace b = false) :
    skipSpace (b :: s) = b :: s := by
  simp only [skipSpace]
  rw [List.dropWhile_cons_of_neg (by simp [h])]

theorem takeWhile_stop {α : Type} (p : α → Bool) : ∀ {n : List α} {c : α} {s : List α}, n.all p = true →
    p c = false → (n ++ c :: s).takeWhile p = n ∧ (n ++ c :: s).dropWhile p = c :: s
  | [], c, s, _, hc => by simp [hc]
  | a :: n, c, s, hn, hc => by
    simp only [List.all_cons, Bool.and_eq_true] at hn
    obtain ⟨h1, h2⟩ := takeWhile_stop p (n := n) (c := c) (s := s) hn.2 hc
    simp only [List.cons_append, List.takeWhile_cons, List.dropWhile_cons, hn.1, if_true, h1, h2,
      and_self]

theorem readName_ok {t : NameType} {n : Bytes} {c : Byte} {s : Bytes} (hn : n.all (isNameByte t) = true)
    (hc : isNameByte t c = false) : readName t (n ++ c :: s) = .ok (n, c :: s) := by
  obtain ⟨h1, h2⟩ := takeWhile_stop (isNameByte t) (n := n) (c := c) (s := s) hn hc
  simp only [readName, h1, h2]

/-! ## Entities -/

theorem foldl_decimal : ∀ (fuel n : Nat), n < fuel →
    (decimalAux fuel n).foldl (fun n c => 10 * n + hexValue c) 0 = n
  | 0, n, h => by omega
  | fuel + 1, n, h => by
    have hv : ∀ k, k < 10 → hexValue (digit k) = k := by
      intro k hk
      simp only [hexValue, digit_toNat hk]
      rw [if_pos (by omega)]
      omega
    simp only [decimalAux]
    split
    · rename_i h10
      simp only [List.foldl_cons, List.foldl_nil, hv n h10]
      omega
    · rename_i h10
      simp only [List.foldl_append, List.foldl_cons, List.foldl_nil,
        foldl_decimal fuel (n / 10) (by omega), hv (n % 10) (by omega)]
      omega

theorem entityNumber_format (b : Byte) : entityNumber false (formatUint b.toNat) = some b := by
  simp only [entityNumber, if_neg (formatUint_ne_nil _), Bool.false_eq_true, if_false]
  rw [formatUint, foldl_decimal _ _ (by omega), if_pos (by have := b.isLt; omega)]
  simp

theorem isEntityDigit_digit {c : Byte} (h : 48 ≤ c.toNat ∧ c.toNat ≤ 57) :
    isEntityDigit false c = true := by
  simp [isEntityDigit, h]

theorem readEntity_numbered (b : Byte) (s : Bytes) :
    readEntity (35#8 :: formatUint b.toNat ++ 59#8 :: s) = .ok ([b], s) := by
  have key : numericEntity false [38#8, 35#8] (formatUint b.toNat ++ 59#8 :: s) = .ok ([b], s) := by
    have hall : (formatUint b.toNat).all (isEntityDigit false) = true := by
      rw [List.all_eq_true]
      intro c hc
      exact isEntityDigit_digit (formatUint_digits _ c hc)
    obtain ⟨h1, h2⟩ := takeWhile_stop (isEntityDigit false) (c := 59#8) (s := s) hall (by decide)
    simp only [numericEntity, h1, h2, entityNumber_format, if_true]
  cases hf : formatUint b.toNat with
  | nil => exact absurd hf (formatUint_ne_nil _)
  | cons c t =>
    rw [hf] at key
    have hc := formatUint_digits b.toNat c (by rw [hf]; simp)
    simp only [List.cons_append] at key ⊢
    unfold readEntity
    split
    · rename_i heq; cases heq
    · rename_i heq
      have : c = 120#8 := by
        simp only [List.cons.injEq, true_and] at heq
        exact heq.1
      subst this
      simp at hc
    · rename_i heq
      simp only [List.cons.injEq, true_and] at heq
      rw [← heq]; exact key
    · rename_i h1 _ _ h2
      exact absurd rfl (h2 _)

theorem readEntity_named (n : Bytes) (b : Byte) (s : Bytes) (hn : n.all (isNameByte .entity) = true)
    (h35 : ∀ t, n ≠ 35#8 :: t) (hne : n ≠ []) (he : entityNamed n = some b) :
    readEntity (n ++ 59#8 :: s) = .ok ([b], s) := by
  cases n with
  | nil => exact absurd rfl hne
  | cons c t =>
    have hc : c ≠ 35#8 := fun e => h35 t (by rw [e])
    have hr := readName_ok (t := .entity) (c := 59#8) (s := s) hn (by decide)
    unfold readEntity
    split
    · rename_i heq; cases heq
    · rename_i heq
      simp only [List.cons_append, List.cons.injEq] at heq
      exact absurd heq.1 hc
    · rename_i heq
      simp only [List.cons_append, List.cons.injEq] at heq
      exact absurd heq.1 hc
    · simp only [hr, Res.ok_bind, he]

/-! ## Text -/

/-- What escaped text is read as: `cr` tells whether the previous byte was a carriage return. -/
def textBack (lead cr : Bool) : Bytes → Bytes
  | [] => []
  | b :: s =>
    if lead && isSpace b then b :: textBack true false s
    else if b = 13#8 then 10#8 :: textBack false true s
    else if cr && decide (b = 10#8) then textBack false false s
    else b :: textBack false false s

/-- The byte is escaped as an entity by `escapeByte`. -/
def Escaped (b : Byte) : Prop :=
  ∃ e : Bytes, ∀ s, readEntity (e ++ s) = .ok ([b], s) ∧ escapeByte b = 38#8 :: e

theorem escapeByte_cases (b : Byte) :
    (∃ e : Bytes, escapeByte b = 38#8 :: e ∧ b ≠ 13#8 ∧ b ≠ 10#8 ∧ ∀ s, readEntity (e ++ s) = .ok ([b], s)) ∨
    (escapeByte b = [b] ∧ b ≠ 60#8 ∧ b ≠ 62#8 ∧ b ≠ 34#8 ∧ b ≠ 38#8) := by
  have named : ∀ (n : Bytes) (c : Byte), n.all (isNameByte .entity) = true →
      (∀ t, n ≠ 35#8 :: t) → n ≠ [] → entityNamed n = some c →
      ∀ s, readEntity ((n ++ [59#8]) ++ s) = .ok ([c], s) := by
    intro n c h1 h2 h3 h4 s
    rw [List.append_assoc]
    exact readEntity_named n c s h1 h2 h3 h4
  unfold escapeByte
  split
  · subst_vars
    exact .inl ⟨str "quot" ++ [59#8], by decide, by decide, by decide,
      named (str "quot") _ (by decide) (by intro t h; cases h) (by decide) (by decide)⟩
  split
  · subst_vars
    exact .inl ⟨str "apos" ++ [59#8], by decide, by decide, by decide,
      named (str "apos") _ (by decide) (by intro t h; cases h) (by decide) (by decide)⟩
  split
  · subst_vars
    exact .inl ⟨str "amp" ++ [59#8], by decide, by decide, by decide,
      named (str "amp") _ (by decide) (by intro t h; cases h) (by decide) (by decide)⟩
  split
  · subst_vars
    exact .inl ⟨str "lt" ++ [59#8], by decide, by decide, by decide,
      named (str "lt") _ (by decide) (by intro t h; cases h) (by decide) (by decide)⟩
  split
  · subst_vars
    exact .inl ⟨str "gt" ++ [59#8], by decide, by decide, by decide,
      named (str "gt") _ (by decide) (by intro t h; cases h) (by decide) (by decide)⟩
  split
  · exact .inr ⟨rfl, by assumption, by assumption, by assumption, by assumption⟩
  · rename_i h
    simp only [not_or] at h
    refine .inl ⟨35#8 :: formatUint b.toNat ++ [59#8], by simp [numbered], h.2.2, h.2.1, fun s => ?_⟩
    have := readEntity_numbered b s
    simpa using this

theorem textLoop_entity {mode : TextMode} (hm : mode ≠ .cdata) {fuel : Nat} {b0 b1 b : Byte}
    {out e s : Bytes} (he : readEntity (e ++ s) = .ok ([b], s)) :
    textLoop mode (fuel + 1) b0 b1 out (38#8 :: e ++ s) = textLoop mode fuel 0#8 0#8 (out ++ [b]) s := by
  simp only [List.cons_append]
  rw [textLoop]
  rw [if_neg (by rintro ⟨_, _, h, _⟩; exact absurd h (by decide)),
    if_neg (by rintro ⟨_, _, h, _⟩; exact absurd h (by decide)),
    if_neg (by rintro ⟨h, _⟩; exact absurd h (by decide)),
    if_neg (by rintro ⟨h, _⟩; exact absurd h (by decide)), if_pos ⟨rfl, hm⟩]
  simp only [he]

theorem numbered_eq (b : Byte) : numbered b = 38#8 :: (35#8 :: formatUint b.toNat ++ [59#8]) := by
  simp [numbered]

/-- Escaped text up to the byte that ends it. -/
theorem textLoop_escape {mode : TextMode} {q : Byte} {s r : Bytes}
    (hq : (mode = .plain ∧ q = 60#8 ∧ r = q :: s) ∨ (mode = .quoted ∧ q = 34#8 ∧ r = s)) :
    ∀ (v : Bytes) (lead : Bool) (fuel : Nat) (b0 b1 : Byte) (out : Bytes),
      (escapeString lead v ++ q :: s).length < fuel → 
      textLoop mode fuel b0 b1 out (escapeString lead v ++ q :: s) =
        .ok (out ++ textBack lead (decide (b1 = 13#8)) v, r)
  | [], lead, fuel, b0, b1, out, hf => by
    obtain ⟨fuel, rfl⟩ : ∃ k, fuel = k + 1 := ⟨fuel - 1, by simp at hf; omega⟩
    simp only [escapeString, List.nil_append, textBack, List.append_nil]
    rw [textLoop]
    rcases hq with ⟨rfl, rfl, rfl⟩ | ⟨rfl, rfl, rfl⟩
    · rw [if_neg (by rintro ⟨_, _, _, h⟩; cases h), 
        if_neg (by rintro ⟨_, _, h, _⟩; exact absurd h (by decide)), if_pos ⟨rfl, rfl⟩]
    · rw [if_neg (by rintro ⟨_, _, _, h⟩; cases h), 
        if_neg (by rintro ⟨_, _, _, h⟩; cases h), if_neg (by rintro ⟨h, _⟩; exact absurd h (by decide)),
        if_pos ⟨rfl, rfl⟩]
  | b :: v, lead, fuel, b0, b1, out, hf => by
    have hm : mode ≠ .cdata := by rcases hq with ⟨rfl, _⟩ | ⟨rfl, _⟩ <;> decide
    obtain ⟨fuel, rfl⟩ : ∃ k, fuel = k + 1 := ⟨fuel - 1, by omega⟩
    simp only [escapeString] at hf ⊢
    by_cases hl : (lead && isSpace b) = true
    · simp only [hl, if_true, textBack] at hf ⊢
      rw [numbered_eq, List.append_assoc] at hf ⊢
      rw [textLoop_entity hm (b := b) (by 
        have := readEntity_numbered b (escapeString true v ++ q :: s)
        simpa using this)]
      rw [textLoop_escape hq v true fuel 0#8 0#8 _ (by simp only [List.length_append, List.length_cons] at hf ⊢; omega)]
      simp
    · simp only [hl, if_false, textBack, Bool.false_eq_true] at hf ⊢
      rcases escapeByte_cases b with ⟨e, he, h1, h2, h3⟩ | ⟨he, h1, h2, h3, h4⟩
      · rw [he, List.append_assoc] at hf ⊢
        rw [textLoop_entity hm (b := b) (h3 _),
          textLoop_escape hq v false fuel 0#8 0#8 _ (by simp only [List.length_append, List.length_cons] at hf ⊢; omega)]
        rw [if_neg h1, if_neg (by simp [h2])]
        simp
      · rw [he, List.append_assoc] at hf ⊢
        have hf' : (escapeString false v ++ q :: s).length < fuel := by simp only [List.length_append, List.length_cons] at hf ⊢; omega
        rw [List.singleton_append, textLoop]
        rw [if_neg (by rintro ⟨_, _, h, _⟩; exact h2 h), if_neg (by rintro ⟨_, _, h, _⟩; exact h2 h),
          if_neg (by rintro ⟨h, _⟩; exact h1 h), if_neg (by rintro ⟨h, _⟩; exact h3 h),
          if_neg (by rintro ⟨h, _⟩; exact h4 h)]
        by_cases hcr : b = 13#8
        · rw [if_pos hcr, if_pos hcr, textLoop_escape hq v false fuel _ _ _ hf', hcr]
          simp
        · rw [if_neg hcr, if_neg hcr]
          by_cases hlf : b1 = 13#8 ∧ b = 10#8
          · rw [if_pos hlf, textLoop_escape hq v false fuel _ _ _ hf']
            simp [hlf]
          · rw [if_neg hlf, textLoop_escape hq v false fuel _ _ _ hf']
            rw [if_neg (by simpa using hlf)]
            simp [hcr]

/-- The text of a tag as it is read back. -/
theorem readText_plain (t s : Bytes) :
    readText .plain (escapeString true t ++ 60#8 :: s) = .ok (textBack true false t, 60#8 :: s) := by
  simp only [readText]
  rw [textLoop_escape (.inl ⟨rfl, rfl, rfl⟩) t true _ _ _ _ (Nat.lt_succ_self _)]
  simp

/-- The value of an attribute as it is read back. -/
theorem readText_quoted (t s : Bytes) :
    readText .quoted (escapeString false t ++ 34#8 :: s) = .ok (textBack false false t, s) := by
  simp only [readText]
  rw [textLoop_escape (.inr ⟨rfl, rfl, rfl⟩) t false _ _ _ _ (Nat.lt_succ_self _)]
  simp

/-! ## CDATA -/

/-- The text does not contain `]]>`. -/
def NoCDataEnd (s : Bytes) : Prop := ¬ [93#8, 93#8, 62#8] <:+: s

theorem textLoop_cdata : ∀ (c pre : Bytes) (fuel : Nat) (b0 b1 : Byte) (out s : Bytes),
    (∃ p, p ++ [b0, b1] = 0#8 :: 0#8 :: pre) → NoCDataEnd (pre ++ c) →
    (c ++ (str "]]>" ++ s)).length < fuel →
    textLoop .cdata fuel b0 b1 out (c ++ (str "]]>" ++ s)) =
      .ok (out ++ textBack false (decide (b1 = 13#8)) c, s)
  | [], pre, fuel, b0, b1, out, s, hp, hn, hf => by
    have e3 : str "]]>" = [93#8, 93#8, 62#8] := by decide
    rw [e3] at hf ⊢
    obtain ⟨fuel, rfl⟩ : ∃ k, fuel = k + 3 := ⟨fuel - 3, by simp at hf; omega⟩
    simp only [List.nil_append, List.cons_append, textBack, List.append_nil]
    have step : ∀ (k : Nat) (b0 b1 : Byte) (out t : Bytes),
        textLoop .cdata (k + 1) b0 b1 out (93#8 :: t) = textLoop .cdata k b1 93#8 (out ++ [93#8]) t := by
      intro k b0 b1 out t
      rw [textLoop]
      simp
    rw [step, step, textLoop]
    simp
  | b :: c, pre, fuel, b0, b1, out, s, hp, hn, hf => by
    obtain ⟨fuel, rfl⟩ : ∃ k, fuel = k + 1 := ⟨fuel - 1, by omega⟩
    have hstop : ¬ (b0 = 93#8 ∧ b1 = 93#8 ∧ b = 62#8) := by
      rintro ⟨rfl, rfl, rfl⟩
      obtain ⟨p, hp⟩ := hp
      apply hn
      -- the last two bytes of `0 0 pre` are in `pre`
      have hlen := congrArg List.length hp
      simp only [List.length_append, List.length_cons, List.length_nil] at hlen
      have : ∃ p', pre = p' ++ [93#8, 93#8] := by
        match p, hp with
        | [], hp => simp at hp
        | [x], hp => simp at hp
        | x :: y :: p', hp =>
          simp only [List.cons_append, List.cons.injEq] at hp
          exact ⟨p', hp.2.2.symm⟩
      obtain ⟨p', rfl⟩ := this
      exact ⟨p', c, by simp⟩
    have hf' : (c ++ (str "]]>" ++ s)).length < fuel := by
      simp only [List.length_append, List.length_cons] at hf ⊢; omega
    have hp' : ∃ p, p ++ [b1, b] = 0#8 :: 0#8 :: (pre ++ [b]) := by
      obtain ⟨p, hp⟩ := hp
      refine ⟨p ++ [b0], ?_⟩
      have := congrArg (· ++ [b]) hp
      simpa using this
    have hn' : NoCDataEnd ((pre ++ [b]) ++ c) := by simpa using hn
    simp only [List.cons_append]
    rw [textLoop, if_neg (by rintro ⟨h1, h2, h3, _⟩; exact hstop ⟨h1, h2, h3⟩),
      if_neg (by rintro ⟨_, _, _, h⟩; cases h), if_neg (by rintro ⟨_, h⟩; cases h),
      if_neg (by rintro ⟨_, h⟩; cases h), if_neg (by rintro ⟨_, h⟩; exact h rfl)]
    simp only [textBack, Bool.false_and, Bool.false_eq_true, if_false]
    by_cases hcr : b = 13#8
    · rw [if_pos hcr, if_pos hcr, textLoop_cdata c (pre ++ [b]) fuel _ _ _ s hp' hn' hf', hcr]
      simp
    · rw [if_neg hcr, if_neg hcr]
      by_cases hlf : b1 = 13#8 ∧ b = 10#8
      · rw [if_pos hlf, textLoop_cdata c (pre ++ [b]) fuel _ _ _ s hp' hn' hf']
        simp [hlf]
      · rw [if_neg hlf, textLoop_cdata c (pre ++ [b]) fuel _ _ _ s hp' hn' hf']
        rw [if_neg (by simpa using hlf)]
        simp [hcr]

/-- A CDATA section as it is read back. -/
theorem readText_cdata {c : Bytes} (h : NoCDataEnd c) (s : Bytes) :
    readText .cdata (c ++ (str "]]>" ++ s)) = .ok (textBack false false c, s) := by
  simp only [readText]
  rw [textLoop_cdata c [] _ 0#8 0#8 [] s ⟨[], rfl⟩ (by simpa using h) (Nat.lt_succ_self _)]
  simp

/-! ## Normalisation -/

theorem textBack_cr : ∀ (s : Bytes), (∀ t, s ≠ 10#8 :: t) →
    textBack false true s = textBack false false s
  | [], _ => rfl
  | b :: s, h => by
    have hb : b ≠ 10#8 := fun e => h s (by rw [e])
    simp [textBack, hb]

theorem textBack_norm (s : Bytes) : textBack false false s = Spec.normNewlines s := by
  fun_induction Spec.normNewlines s with
  | case1 s ih => simp [textBack, ih]
  | case2 s h ih => 
    simp only [textBack, Bool.false_and, Bool.false_eq_true, if_false, if_true]
    rw [textBack_cr s (fun t e => h t e), ih]
  | case3 b s h1 h2 ih =>
    have hb : b ≠ 13#8 := fun e => h2 e
    simp [textBack, hb, ih]
  | case4 => rfl

theorem textBack_lead : ∀ (s : Bytes), textBack true false s = Spec.normText s
  | [] => rfl
  | b :: s => by
    by_cases hb : isSpace b = true
    · have := textBack_lead s
      simp only [textBack, hb, Bool.true_and, if_true, this, Spec.normText]
      rw [isSpace_eq] at hb
      simp [hb]
    · have e : textBack true false (b :: s) = textBack false false (b :: s) := by
        simp [textBack, hb]
      rw [e, textBack_norm, Spec.normText]
      rw [isSpace_eq] at hb
      simp [hb]

end Rbxlx
