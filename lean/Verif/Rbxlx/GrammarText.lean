import Verif.Spec.XmlGrammar
import Verif.Rbxlx.TextLemmas
/-!
# The text that the XML parser reads and the grammar of text
-/
namespace Rbxlx
open Go Spec

/-! ## Classes of bytes -/

theorem isNameByte_tag (b : Byte) : isNameByte .tag b = true ↔ TagByte b := by
  simp only [isNameByte, TagByte, Bool.and_eq_true, decide_eq_true_eq, ne_eq, ← BitVec.toNat_inj]
  simp [and_assoc]

theorem isNameByte_attr (b : Byte) : isNameByte .attr b = true ↔ AttrByte b := by
  simp only [isNameByte, AttrByte, TagByte, Bool.and_eq_true, decide_eq_true_eq, ne_eq, ← BitVec.toNat_inj]
  simp [and_assoc]

theorem isNameByte_entity (b : Byte) : isNameByte .entity b = true ↔ RefByte b := by
  simp only [isNameByte, RefByte, TagByte, Bool.and_eq_true, decide_eq_true_eq, ne_eq, ← BitVec.toNat_inj]
  simp [and_assoc]

theorem isNameByte_tag_false {b : Byte} : isNameByte .tag b = false ↔ ¬ TagByte b := by
  rw [← isNameByte_tag]; simp
theorem isNameByte_attr_false {b : Byte} : isNameByte .attr b = false ↔ ¬ AttrByte b := by
  rw [← isNameByte_attr]; simp
theorem isNameByte_entity_false {b : Byte} : isNameByte .entity b = false ↔ ¬ RefByte b := by
  rw [← isNameByte_entity]; simp

theorem isEntityDigit_iff (hex : Bool) (b : Byte) : isEntityDigit hex b = true ↔ IsDigit hex b := by
  unfold isEntityDigit IsDigit digitIn
  cases hex
  · simp
  · simp only [Bool.true_and, Bool.or_eq_true, Bool.and_eq_true, decide_eq_true_eq, true_and, ne_eq]
    split
    · simp; omega
    · split
      · simp; omega
      · split
        · simp; omega
        · simp; omega

theorem isEntityDigit_false {hex : Bool} {b : Byte} : isEntityDigit hex b = false ↔ ¬ IsDigit hex b := by
  rw [← isEntityDigit_iff]; simp

instance (hex : Bool) (b : Byte) : Decidable (IsDigit hex b) := by unfold IsDigit; infer_instance

theorem hexValue_eq {hex : Bool} {b : Byte} (h : IsDigit hex b) : hexValue b = (digitIn hex b).getD 0 := by
  unfold IsDigit at h
  unfold digitIn at h ⊢
  unfold hexValue
  by_cases h1 : 48 ≤ b.toNat ∧ b.toNat ≤ 57
  · rw [if_pos h1, if_pos h1.2]; rfl
  · rw [if_neg h1] at h ⊢
    by_cases h2 : hex = true ∧ 97 ≤ b.toNat ∧ b.toNat ≤ 102
    · rw [if_pos h2, if_neg (by omega), if_neg (by omega), Option.getD_some]; omega
    · rw [if_neg h2] at h ⊢
      by_cases h3 : hex = true ∧ 65 ≤ b.toNat ∧ b.toNat ≤ 70
      · rw [if_pos h3, if_neg (by omega), if_pos (by omega), Option.getD_some]; omega
      · rw [if_neg h3] at h
        exact absurd rfl h

theorem foldl_numberOf (hex : Bool) : ∀ (ds : Bytes) (n : Nat), (∀ d ∈ ds, IsDigit hex d) →
    ds.foldl (fun n c => (if hex then 16 else 10) * n + hexValue c) n =
      n * (if hex then 16 else 10) ^ ds.length + numberOf hex ds
  | [], n, _ => by simp [numberOf]
  | d :: ds, n, h => by
    rw [List.foldl_cons, foldl_numberOf hex ds _ (fun d' hd => h d' (List.mem_cons_of_mem _ hd)),
      hexValue_eq (h d (List.mem_cons_self ..)), numberOf, List.length_cons, Nat.pow_succ]
    generalize (if hex = true then 16 else 10) = base
    generalize base ^ ds.length = p
    rw [Nat.add_mul, Nat.mul_comm p base, ← Nat.mul_assoc, Nat.mul_comm base n]
    omega

theorem entityNumber_eq (hex : Bool) {ds : Bytes} (h : ∀ d ∈ ds, IsDigit hex d) :
    entityNumber hex ds =
      if ds = [] ∨ 255 < numberOf hex ds then none else some (BitVec.ofNat 8 (numberOf hex ds)) := by
  unfold entityNumber
  simp only [foldl_numberOf hex ds 0 h, Nat.zero_mul, Nat.zero_add]
  by_cases h1 : ds = []
  · simp [h1]
  · by_cases h2 : numberOf hex ds ≤ 255
    · rw [if_neg h1, if_pos h2, if_neg (by rintro (h | h); exact h1 h; omega)]
    · rw [if_neg h1, if_neg h2, if_pos (.inr (by omega))]

theorem entityNamed_iff (n : Bytes) (b : Byte) :
    entityNamed n = some b ↔ ∃ e : NamedRef, n = e.name ∧ b = e.char := by
  constructor
  · intro h
    unfold entityNamed at h
    split at h
    · rename_i hn; cases h; exact ⟨.lt, hn, rfl⟩
    · split at h
      · rename_i hn; cases h; exact ⟨.gt, hn, rfl⟩
      · split at h
        · rename_i hn; cases h; exact ⟨.amp, hn, rfl⟩
        · split at h
          · rename_i hn; cases h; exact ⟨.apos, hn, rfl⟩
          · split at h
            · rename_i hn; cases h; exact ⟨.quot, hn, rfl⟩
            · cases h
  · rintro ⟨e, rfl, rfl⟩
    cases e <;> decide

theorem entityNamed_none (n : Bytes) : entityNamed n = none ↔ ∀ e : NamedRef, n ≠ e.name := by
  constructor
  · rintro h e rfl
    rw [(entityNamed_iff _ _).2 ⟨e, rfl, rfl⟩] at h
    cases h
  · intro h
    cases hn : entityNamed n with
    | none => rfl
    | some b =>
      obtain ⟨e, he, -⟩ := (entityNamed_iff _ _).1 hn
      exact absurd he (h e)

/-! ## Lists -/

theorem takeWhile_all {α : Type} (p : α → Bool) : ∀ (l : List α), ∀ a ∈ l.takeWhile p, p a = true
  | [], a, h => by simp at h
  | b :: l, a, h => by
    by_cases hb : p b = true
    · rw [List.takeWhile_cons_of_pos hb] at h
      rcases List.mem_cons.1 h with rfl | h
      · exact hb
      · exact takeWhile_all p l a h
    · rw [List.takeWhile_cons_of_neg hb] at h
      simp at h

theorem dropWhile_first {α : Type} (p : α → Bool) : ∀ (l : List α) {a : α} {t : List α},
    l.dropWhile p = a :: t → p a = false
  | [], _, _, h => by simp at h
  | b :: l, a, t, h => by
    by_cases hb : p b = true
    · rw [List.dropWhile_cons_of_pos hb] at h
      exact dropWhile_first p l h
    · rw [List.dropWhile_cons_of_neg hb] at h
      cases h
      simpa using hb

theorem split_while {α : Type} (p : α → Bool) (l : List α) : l = l.takeWhile p ++ l.dropWhile p :=
  List.takeWhile_append_dropWhile.symm

/-! ## Entities -/

/-- The piece begins with an ampersand. -/
def isRef : Piece → Bool
  | .byte _ | .cr | .crlf => false
  | _ => true

/-- `&` -/
theorem ref_source {p : Piece} (h : isRef p = true) : ∃ e, p.source = 38#8 :: e := by
  have e1 : str "&" = [38#8] := by decide
  have e2 : ∀ hex, ∃ e, numberLead hex = 38#8 :: e := by
    intro hex; cases hex
    · exact ⟨[35#8], by decide⟩
    · exact ⟨[35#8, 120#8], by decide⟩
  cases p with
  | byte _ => cases h
  | cr => cases h
  | crlf => cases h
  | named e => exact ⟨e.name ++ str ";", by simp [Piece.source, e1]⟩
  | number hex ds => obtain ⟨e, he⟩ := e2 hex; exact ⟨e ++ ds ++ str ";", by simp [Piece.source, he]⟩
  | keptNumber hex ds s => obtain ⟨e, he⟩ := e2 hex; exact ⟨e ++ ds ++ semi s, by simp [Piece.source, he]⟩
  | keptName n s => exact ⟨n ++ semi s, by simp [Piece.source, e1]⟩

theorem numericEntity_eq {hex : Bool} {lead ds : Bytes} {c : Byte} {rest : Bytes} (hd : ∀ d ∈ ds, IsDigit hex d)
    (hc : ¬ IsDigit hex c) :
    numericEntity hex lead (ds ++ c :: rest) =
      if c = 59#8 then
        match entityNumber hex ds with
        | some b => .ok ([b], rest)
        | none => .ok (lead ++ ds ++ [59#8], rest)
      else .ok (lead ++ ds, c :: rest) := by
  obtain ⟨h1, h2⟩ := takeWhile_stop (isEntityDigit hex) (n := ds) (c := c) (s := rest)
    (List.all_eq_true.2 (fun d h => (isEntityDigit_iff hex d).2 (hd d h))) (isEntityDigit_false.2 hc)
  unfold numericEntity
  simp only [h1, h2]
  cases entityNumber hex ds <;> rfl

theorem semicolon_not_digit (hex : Bool) : ¬ IsDigit hex 59#8 := by cases hex <;> decide

/-- A numeric entity from after the ampersand. -/
theorem readEntity_number {hex : Bool} {ds rest : Bytes} {c : Byte}
    (hx : hex = false → ds = [] → c ≠ 120#8) (hd : ∀ d ∈ ds, IsDigit hex d) (hc : ¬ IsDigit hex c) :
    readEntity ((if hex then [35#8, 120#8] else [35#8]) ++ ds ++ c :: rest) =
      numericEntity hex (numberLead hex) (ds ++ c :: rest) := by
  cases hex with
  | true =>
    simp only [if_true, List.cons_append, List.nil_append]
    rfl
  | false =>
    simp only [Bool.false_eq_true, if_false, List.cons_append, List.nil_append]
    have key : ∀ b t, b ≠ 120#8 → readEntity (35#8 :: b :: t) = numericEntity false (numberLead false) (b :: t) := by
      intro b t hb
      unfold readEntity
      split
      · rename_i h; cases h
      · rename_i h
        simp only [List.cons.injEq, true_and] at h
        exact absurd h.1 hb
      · rename_i h
        simp only [List.cons.injEq, true_and] at h
        cases h
        rfl
      · rename_i h1 h2
        exact absurd rfl (h2 _)
    cases ds with
    | nil => exact key c rest (hx rfl rfl)
    | cons d ds =>
      exact key d _ (by
        rintro rfl
        exact absurd (hd _ (List.mem_cons_self ..)) (by decide))

/-- A named entity from after the ampersand. -/
theorem readEntity_name {n rest : Bytes} {c : Byte} (hn : ∀ b ∈ n, RefByte b) (h35 : ∀ t, n ≠ 35#8 :: t)
    (hc : ¬ RefByte c) :
    readEntity (n ++ c :: rest) =
      match (c :: rest : Bytes) with
      | 59#8 :: rest =>
        match entityNamed n with
        | some b => .ok ([b], rest)
        | none => .ok (38#8 :: n ++ [59#8], rest)
      | rest => .ok (38#8 :: n, rest) := by
  have hr : readName .entity (n ++ c :: rest) = .ok (n, c :: rest) :=
    readName_ok (List.all_eq_true.2 (fun b h => (isNameByte_entity b).2 (hn b h))) (isNameByte_entity_false.2 hc)
  have hh : ∀ t, n ++ c :: rest ≠ 35#8 :: t := by
    intro t h
    cases n with
    | nil =>
      simp only [List.nil_append, List.cons.injEq] at h
      exact hc (h.1 ▸ (by unfold RefByte TagByte; decide))
    | cons a n =>
      simp only [List.cons_append, List.cons.injEq] at h
      exact h35 n (by rw [h.1])
  unfold readEntity
  split
  · rename_i h; simp at h
  · rename_i h; exact absurd h (hh _)
  · rename_i h; exact absurd h (hh _)
  · rw [hr]
    rfl

/-- An entity that can be written is read as what it means. -/
theorem readEntity_piece {p : Piece} (hr : isRef p = true) {stop c : Byte} {rest : Bytes}
    (hok : p.ok stop c) {e : Bytes} (he : p.source = 38#8 :: e) :
    readEntity (e ++ c :: rest) = .ok (p.meaning, c :: rest) := by
  have e1 : str "&" = [38#8] := by decide
  have e2 : str ";" = [59#8] := by decide
  have e3 : ∀ hex, numberLead hex = 38#8 :: (if hex then [35#8, 120#8] else [35#8]) := by
    intro hex; cases hex <;> decide
  cases p with
  | byte _ => cases hr
  | cr => cases hr
  | crlf => cases hr
  | named r =>
    have : e = r.name ++ [59#8] := by simpa [Piece.source, e1, e2] using he.symm
    subst this
    rw [List.append_assoc, List.singleton_append, readEntity_name]
    · rw [(entityNamed_iff _ _).2 ⟨r, rfl, rfl⟩]
      rfl
    · intro b hb
      unfold RefByte TagByte
      revert b
      cases r <;> decide
    · intro t h
      have := congrArg List.head? h
      cases r <;> revert this <;> simp only [List.head?_cons] <;> decide
    · unfold RefByte TagByte; decide
  | number hex ds =>
    obtain ⟨h1, h2, h3⟩ := hok
    have : e = (if hex then [35#8, 120#8] else [35#8]) ++ ds ++ [59#8] := by
      have := he.symm
      simp only [Piece.source, e3, e2, List.cons_append, List.cons.injEq, true_and] at this
      exact this
    subst this
    rw [List.append_assoc, List.singleton_append, readEntity_number (by rintro - rfl; exact absurd rfl h1) h2
      (semicolon_not_digit hex), numericEntity_eq h2 (semicolon_not_digit hex), if_pos rfl, entityNumber_eq hex h2,
      if_neg (by rintro (h | h); exact h1 h; omega)]
    rfl
  | keptNumber hex ds s =>
    obtain ⟨h1, h2, h3, h4⟩ := hok
    cases s with
    | true =>
      have : e = (if hex then [35#8, 120#8] else [35#8]) ++ ds ++ [59#8] := by
        have := he.symm
        simp only [Piece.source, e3, semi, e2, List.cons_append, List.cons.injEq, true_and, if_true] at this
        exact this
      subst this
      rw [List.append_assoc, List.singleton_append, readEntity_number (by rintro - -; decide) h1
        (semicolon_not_digit hex), numericEntity_eq h1 (semicolon_not_digit hex), if_pos rfl, entityNumber_eq hex h1,
        if_pos (h2 rfl)]
      simp [Piece.meaning, semi, e2]
    | false =>
      obtain ⟨h5, h6⟩ := h3 rfl
      have : e = (if hex then [35#8, 120#8] else [35#8]) ++ ds := by
        have := he.symm
        simp only [Piece.source, e3, semi, List.cons_append, List.cons.injEq, true_and, Bool.false_eq_true, if_false,
          List.append_nil] at this
        exact this
      subst this
      rw [readEntity_number (h4 rfl) h1 h5, numericEntity_eq h1 h5, if_neg h6]
      simp [Piece.meaning, semi]
  | keptName n s =>
    obtain ⟨h1, h2, h3, h4⟩ := hok
    cases s with
    | true =>
      have : e = n ++ [59#8] := by simpa [Piece.source, e1, e2, semi] using he.symm
      subst this
      rw [List.append_assoc, List.singleton_append, readEntity_name h1 h2 (by unfold RefByte TagByte; decide),
        (entityNamed_none n).2 (h3 rfl)]
      simp [Piece.meaning, semi, e1, e2]
    | false =>
      obtain ⟨h5, h6⟩ := h4 rfl
      have : e = n := by simpa [Piece.source, e1, semi] using he.symm
      subst this
      rw [readEntity_name h1 h2 h5]
      split
      · rename_i h; simp only [List.cons.injEq] at h; exact absurd h.1 h6
      · simp [Piece.meaning, semi, e1]

/-- What is read as an entity is one. -/
theorem readEntity_sound {s x rest : Bytes} (h : readEntity s = .ok (x, rest)) (stop : Byte) :
    ∃ p e, isRef p = true ∧ p.source = 38#8 :: e ∧ s = e ++ rest ∧ p.meaning = x ∧ p.ok stop (rest.headD 0#8) := by
  have e1 : str "&" = [38#8] := by decide
  have e2 : str ";" = [59#8] := by decide
  have num : ∀ (hex : Bool) (s : Bytes), (hex = false → ∀ t, s ≠ 120#8 :: t) →
      numericEntity hex (numberLead hex) s = .ok (x, rest) →
      ∃ ds sem, isRef (.keptNumber hex ds sem) = true ∧
        (s = ds ++ semi sem ++ rest) ∧
        (((Piece.keptNumber hex ds sem).meaning = x ∧ (Piece.keptNumber hex ds sem).ok stop (rest.headD 0#8)) ∨
         (sem = true ∧ (Piece.number hex ds).meaning = x ∧ (Piece.number hex ds).ok stop (rest.headD 0#8))) := by
    intro hex s hx hn
    have hs := split_while (isEntityDigit hex) s
    have hds : ∀ d ∈ s.takeWhile (isEntityDigit hex), IsDigit hex d :=
      fun d hd => (isEntityDigit_iff hex d).1 (takeWhile_all _ _ d hd)
    unfold numericEntity at hn
    simp only at hn
    generalize hT : s.takeWhile (isEntityDigit hex) = ds at *
    split at hn
    · cases hn
    · rename_i b rest' hdrop
      rw [hdrop] at hs
      have hb := isEntityDigit_false.1 (dropWhile_first _ _ hdrop)
      split at hn
      · rename_i hb59
        subst hb59
        rw [entityNumber_eq hex hds] at hn
        split at hn
        · rename_i c hc
          split at hc
          · cases hc
          · rename_i hcond
            cases hc
            cases hn
            exact ⟨ds, true, rfl, by simp [hs, semi, e2], .inr ⟨rfl, rfl,
              (fun e => hcond (.inl e)), hds, Nat.le_of_not_lt (fun e => hcond (.inr e))⟩⟩
        · rename_i hc
          split at hc
          · rename_i hcond
            cases hn
            exact ⟨ds, true, rfl, by simp [hs, semi, e2], .inl ⟨by simp [Piece.meaning, semi, e2],
              hds, (fun _ => hcond), by simp, by simp⟩⟩
          · cases hc
      · rename_i hb59
        cases hn
        refine ⟨ds, false, rfl, by simpa [semi] using hs, .inl ⟨by simp [Piece.meaning, semi],
              hds, by simp, (fun _ => ⟨hb, hb59⟩), ?_⟩⟩
        intro _ hhex hdsn
        rintro rfl
        subst hdsn
        exact hx hhex _ (by simpa using hs)
  have e3 : ∀ hex, numberLead hex = 38#8 :: (if hex then [35#8, 120#8] else [35#8]) := by
    intro hex; cases hex <;> decide
  have num' : ∀ (hex : Bool) (s : Bytes), (hex = false → ∀ t, s ≠ 120#8 :: t) →
      numericEntity hex (numberLead hex) s = .ok (x, rest) →
      ∃ p e, isRef p = true ∧ p.source = 38#8 :: e ∧ (if hex then [35#8, 120#8] else [35#8]) ++ s = e ++ rest ∧
        p.meaning = x ∧ p.ok stop (rest.headD 0#8) := by
    intro hex s hx hn
    obtain ⟨ds, sem, -, h2, h3 | ⟨rfl, h3⟩⟩ := num hex s hx hn
    · exact ⟨.keptNumber hex ds sem, (if hex then [35#8, 120#8] else [35#8]) ++ ds ++ semi sem, rfl,
        by simp [Piece.source, e3], by simp [h2], h3⟩
    · exact ⟨.number hex ds, (if hex then [35#8, 120#8] else [35#8]) ++ ds ++ str ";", rfl,
        by simp [Piece.source, e3], by simp [h2, semi], h3⟩
  unfold readEntity at h
  split at h
  · cases h
  · rename_i s
    exact num' true s (by simp) h
  · rename_i s hs
    exact num' false s (fun _ t ht => hs t (by rw [ht])) h
  · rename_i h35a h35
    obtain ⟨⟨n, rest'⟩, hr, h⟩ := Res.bind_eq_ok.1 h
    have hs := split_while (isNameByte .entity) s
    unfold readName at hr
    split at hr
    · cases hr
    · rename_i b rest'' hdrop
      cases hr
      have hn : ∀ b ∈ s.takeWhile (isNameByte .entity), RefByte b :=
        fun d hd => (isNameByte_entity d).1 (takeWhile_all _ _ d hd)
      have hb := isNameByte_entity_false.1 (dropWhile_first _ _ hdrop)
      rw [hdrop] at hs
      generalize s.takeWhile (isNameByte .entity) = n at *
      have hn35 : ∀ t, n ≠ 35#8 :: t := by
        rintro t rfl
        exact h35 _ hs
      simp only at h
      split at h
      · rename_i rest3 heq
        cases heq
        split at h
        · rename_i c hc
          cases h
          obtain ⟨e, rfl, rfl⟩ := (entityNamed_iff _ _).1 hc
          exact ⟨.named e, e.name ++ str ";", rfl, by simp [Piece.source, e1], by simp [hs, e2], rfl, trivial⟩
        · rename_i hc
          cases h
          exact ⟨.keptName n true, n ++ str ";", rfl, by simp [Piece.source, e1, semi], by simp [hs, e2],
            by simp [Piece.meaning, semi, e1, e2], hn, hn35, (fun _ => (entityNamed_none n).1 hc), by simp⟩
      · rename_i hb59
        cases h
        exact ⟨.keptName n false, n, rfl, by simp [Piece.source, e1, semi], hs,
            by simp [Piece.meaning, semi, e1], hn, hn35, by simp, (fun _ => ⟨hb, fun (e : b = 59#8) => hb59 rest'' (by rw [e])⟩)⟩

/-! ## Text -/

/-- How a kind of text ends: with which byte and what remains to be read. -/
def Stops (mode : TextMode) (stop : Byte) (s r : Bytes) : Prop :=
  (mode = .plain ∧ stop = 60#8 ∧ r = stop :: s) ∨ (mode = .quoted ∧ stop = 34#8 ∧ r = s)

/-- `]]>` -/
def endPieces : List Piece := [.byte 93#8, .byte 93#8, .byte 62#8]

theorem next_eq (ps : List Piece) (stop : Byte) (s : Bytes) :
    (textSource ps ++ stop :: s).headD 0#8 = (textSource ps ++ [stop]).headD 0#8 := by
  cases textSource ps <;> rfl

/-- A byte that is not special is one step. -/
theorem textLoop_byte {mode : TextMode} {stop : Byte} {s r : Bytes} (hq : Stops mode stop s r) {fuel : Nat}
    {b0 b1 b : Byte} {out t : Bytes} (hb : b ≠ 38#8 ∧ b ≠ 13#8 ∧ b ≠ stop)
    (he : mode = .plain → ¬ (b0 = 93#8 ∧ b1 = 93#8 ∧ b = 62#8)) :
    textLoop mode (fuel + 1) b0 b1 out (b :: t) =
      if b1 = 13#8 ∧ b = 10#8 then textLoop mode fuel b1 b out t
      else textLoop mode fuel b1 b (out ++ [b]) t := by
  obtain ⟨h1, h2, h3⟩ := hb
  rw [textLoop]
  rcases hq with ⟨rfl, rfl, -⟩ | ⟨rfl, rfl, -⟩
  · rw [if_neg (by rintro ⟨-, -, -, h⟩; cases h), if_neg (fun h => he rfl ⟨h.1, h.2.1, h.2.2.1⟩),
      if_neg (fun h => h3 h.1), if_neg (by rintro ⟨-, h⟩; cases h), if_neg (fun h => h1 h.1), if_neg h2]
  · rw [if_neg (by rintro ⟨-, -, -, h⟩; cases h), if_neg (by rintro ⟨-, -, -, h⟩; cases h),
      if_neg (by rintro ⟨-, h⟩; cases h), if_neg (fun h => h3 h.1), if_neg (fun h => h1 h.1), if_neg h2]

/-- A carriage return is one step. -/
theorem textLoop_cr {mode : TextMode} {fuel : Nat} {b0 b1 : Byte} {out t : Bytes} :
    textLoop mode (fuel + 1) b0 b1 out (13#8 :: t) = textLoop mode fuel b1 13#8 (out ++ [10#8]) t := by
  rw [textLoop]
  simp

theorem infix_tail {α : Type} {l : List α} {a : α} {m : List α} (h : ¬ l <:+: a :: m) : ¬ l <:+: m :=
  fun h' => h (h'.trans (List.suffix_cons a m).isInfix)

/-- `]]>` is not written after bytes that are not brackets. -/
theorem noEnd_reset {ps : List Piece} {a b : Byte} (hb : b ≠ 93#8) (h : ¬ endPieces <:+: ps) :
    ¬ endPieces <:+: .byte a :: .byte b :: ps := by
  intro h'
  rcases List.infix_cons_iff.1 h' with h' | h'
  · obtain ⟨t, ht⟩ := h'
    simp only [endPieces, List.cons_append, List.cons.injEq, Piece.byte.injEq] at ht
    exact hb ht.2.1.symm
  · rcases List.infix_cons_iff.1 h' with h' | h'
    · obtain ⟨t, ht⟩ := h'
      simp only [endPieces, List.cons_append, List.cons.injEq, Piece.byte.injEq] at ht
      exact hb ht.1.symm
    · exact h h'

/-- Text that can be written is read as what it means. -/
theorem textLoop_pieces {mode : TextMode} {stop : Byte} {s r : Bytes} (hq : Stops mode stop s r) :
    ∀ (ps : List Piece) (fuel : Nat) (b0 b1 : Byte) (out : Bytes), PiecesOk stop ps →
      (b1 = 13#8 → (textSource ps ++ [stop]).headD 0#8 ≠ 10#8) →
      (mode = .plain → ¬ endPieces <:+: .byte b0 :: .byte b1 :: ps) →
      (textSource ps ++ stop :: s).length < fuel →
      textLoop mode fuel b0 b1 out (textSource ps ++ stop :: s) = .ok (out ++ textMeaning ps, r)
  | [], fuel, b0, b1, out, _, _, _, hf => by
    obtain ⟨fuel, rfl⟩ : ∃ k, fuel = k + 1 := ⟨fuel - 1, by omega⟩
    simp only [textSource, textMeaning, List.flatMap_nil, List.nil_append, List.append_nil]
    rw [textLoop]
    rcases hq with ⟨rfl, rfl, rfl⟩ | ⟨rfl, rfl, rfl⟩ <;> simp
  | p :: ps, fuel, b0, b1, out, hok, hcr, hend, hf => by
    obtain ⟨fuel, rfl⟩ : ∃ k, fuel = k + 1 := ⟨fuel - 1, by omega⟩
    obtain ⟨hp, hps⟩ := hok
    have hsrc : textSource (p :: ps) = p.source ++ textSource ps := rfl
    have hmean : textMeaning (p :: ps) = p.meaning ++ textMeaning ps := rfl
    rw [hsrc] at hcr hf ⊢
    rw [hmean]
    rw [List.append_assoc] at hf ⊢
    by_cases hr : isRef p = true
    · obtain ⟨e, he⟩ := ref_source hr
      rw [he] at hf ⊢
      have hf' : (textSource ps ++ stop :: s).length < fuel := by
        simp only [List.length_append, List.length_cons] at hf ⊢; omega
      obtain ⟨c, rest, hc⟩ : ∃ c rest, textSource ps ++ stop :: s = c :: rest := by
        cases textSource ps with
        | nil => exact ⟨_, _, rfl⟩
        | cons a l => exact ⟨_, _, rfl⟩
      have hnext : (textSource ps ++ [stop]).headD 0#8 = c := by rw [← next_eq ps stop s, hc]; rfl
      rw [hnext] at hp
      have hread := readEntity_piece (rest := rest) hr hp he
      rw [← hc] at hread
      have h1 : (38#8 : Byte) ≠ 62#8 := by decide
      rw [List.cons_append, textLoop, if_neg (by rintro ⟨_, _, h, _⟩; exact h1 h),
        if_neg (by rintro ⟨_, _, h, _⟩; exact h1 h), if_neg (by rintro ⟨h, _⟩; revert h; decide),
        if_neg (by rintro ⟨h, _⟩; revert h; decide),
        if_pos ⟨rfl, by rcases hq with ⟨rfl, _⟩ | ⟨rfl, _⟩ <;> decide⟩, hread]
      simp only
      rw [textLoop_pieces hq ps fuel 0#8 0#8 _ hps (by simp)
        (fun hm => noEnd_reset (by decide) (infix_tail (infix_tail (infix_tail (hend hm))))) hf']
      simp
    · have hf' : (textSource ps ++ stop :: s).length < fuel := by
        cases p <;> simp only [isRef, not_true_eq_false, Bool.false_eq_true, not_false_eq_true] at hr
        all_goals simp only [Piece.source, List.length_append, List.length_cons, List.length_nil] at hf ⊢; omega
      cases p with
      | byte b =>
        have he : mode = .plain → ¬ (b0 = 93#8 ∧ b1 = 93#8 ∧ b = 62#8) := by
          rintro hm ⟨rfl, rfl, rfl⟩
          exact hend hm ⟨[], ps, rfl⟩
        simp only [Piece.source, List.cons_append, List.nil_append]
        rw [textLoop_byte hq hp he, if_neg (by rintro ⟨h1, rfl⟩; exact hcr h1 rfl)]
        rw [textLoop_pieces hq ps fuel _ _ _ hps (fun h => absurd h hp.2.1)
          (fun hm => infix_tail (hend hm)) hf']
        simp [Piece.meaning]
      | cr =>
        simp only [Piece.source, List.cons_append, List.nil_append]
        rw [textLoop_cr, textLoop_pieces hq ps fuel _ _ _ hps (fun _ => hp)
          (fun hm => noEnd_reset (by decide) (infix_tail (infix_tail (infix_tail (hend hm))))) hf']
        simp [Piece.meaning]
      | crlf =>
        simp only [Piece.source, List.cons_append, List.nil_append] at hf ⊢
        obtain ⟨fuel, rfl⟩ : ∃ k, fuel = k + 1 := ⟨fuel - 1, by simp at hf; omega⟩
        have h10 : (10#8 : Byte) ≠ stop := by rcases hq with ⟨_, rfl, _⟩ | ⟨_, rfl, _⟩ <;> decide
        rw [textLoop_cr, textLoop_byte hq ⟨by decide, by decide, h10⟩ (by rintro - ⟨-, h, -⟩; revert h; decide),
          if_pos ⟨rfl, rfl⟩, textLoop_pieces hq ps fuel _ _ _ hps (fun h => absurd h (by decide))
          (fun hm => noEnd_reset (by decide) (infix_tail (infix_tail (infix_tail (hend hm)))))
          (by simp only [List.length_append, List.length_cons] at hf ⊢; omega)]
        simp [Piece.meaning]
      | named e => exact absurd rfl hr
      | number hex ds => exact absurd rfl hr
      | keptNumber hex ds s => exact absurd rfl hr
      | keptName n s => exact absurd rfl hr

/-- What is read as text is text. -/
theorem textLoop_sound {mode : TextMode} (hm : mode ≠ .cdata) : ∀ (fuel : Nat) (b0 b1 : Byte) (out s t r : Bytes),
    textLoop mode fuel b0 b1 out s = .ok (t, r) → (b1 = 13#8 → s.headD 0#8 ≠ 10#8) →
    ∃ ps tail stop, Stops mode stop tail r ∧ PiecesOk stop ps ∧ s = textSource ps ++ stop :: tail ∧
      t = out ++ textMeaning ps ∧ (mode = .plain → ¬ endPieces <:+: .byte b0 :: .byte b1 :: ps)
  | 0, _, _, _, _, _, _, h, _ => by simp [textLoop] at h
  | fuel + 1, _, _, _, [], _, _, h, _ => by simp [textLoop] at h
  | fuel + 1, b0, b1, out, b :: s, t, r, h, hcr => by
    rw [textLoop] at h
    rw [if_neg (fun e => hm e.2.2.2)] at h
    by_cases he : b0 = 93#8 ∧ b1 = 93#8 ∧ b = 62#8 ∧ mode = .plain
    · rw [if_pos he] at h; cases h
    rw [if_neg he] at h
    by_cases hlt : b = 60#8 ∧ mode = .plain
    · rw [if_pos hlt] at h
      cases h
      refine ⟨[], s, 60#8, .inl ⟨hlt.2, rfl, by rw [hlt.1]⟩, trivial, by simp [textSource, hlt.1], by simp [textMeaning],
        fun _ h => ?_⟩
      have := h.length_le
      simp [endPieces] at this
    rw [if_neg hlt] at h
    by_cases hquo : b = 34#8 ∧ mode = .quoted
    · rw [if_pos hquo] at h
      cases h
      exact ⟨[], s, 34#8, .inr ⟨hquo.2, rfl, rfl⟩, trivial, by simp [textSource, hquo.1], by simp [textMeaning],
        fun hp => by rw [hp] at hquo; cases hquo.2⟩
    rw [if_neg hquo] at h
    by_cases hamp : b = 38#8 ∧ mode ≠ .cdata
    · rw [if_pos hamp] at h
      split at h
      · rename_i x rest hx
        obtain ⟨ps, tail, stop, h1, h2, h3, h4, h5⟩ :=
          textLoop_sound hm fuel 0#8 0#8 _ rest t r h (fun e => absurd e (by decide))
        obtain ⟨p, e, p1, p2, p3, p4, p5⟩ := readEntity_sound hx stop
        rw [h3, next_eq] at p5
        refine ⟨p :: ps, tail, stop, h1, ⟨p5, h2⟩, ?_, ?_, fun hp hin => ?_⟩
        · simp only [textSource, List.flatMap_cons] at h3 ⊢
          rw [p2, p3, h3, hamp.1]; simp
        · rw [h4, ← p4]; simp [textMeaning]
        · have hps := infix_tail (infix_tail (h5 hp))
          have hnb : ∀ c, p ≠ .byte c := by rintro c rfl; cases p1
          rcases List.infix_cons_iff.1 hin with hin | hin
          · obtain ⟨u, hu⟩ := hin
            simp only [endPieces, List.cons_append, List.cons.injEq] at hu
            exact hnb _ hu.2.2.1.symm
          · rcases List.infix_cons_iff.1 hin with hin | hin
            · obtain ⟨u, hu⟩ := hin
              simp only [endPieces, List.cons_append, List.cons.injEq] at hu
              exact hnb _ hu.2.1.symm
            · rcases List.infix_cons_iff.1 hin with hin | hin
              · obtain ⟨u, hu⟩ := hin
                simp only [endPieces, List.cons_append, List.cons.injEq] at hu
                exact hnb _ hu.1.symm
              · exact hps hin
      · cases h
      · cases h
    rw [if_neg hamp] at h
    have hb38 : b ≠ 38#8 := fun e => hamp ⟨e, hm⟩
    by_cases hb13 : b = 13#8
    · rw [if_pos hb13] at h
      subst hb13
      have noCr : ∀ {p : Piece} {ps : List Piece}, (∀ c, p ≠ .byte c) → ¬ endPieces <:+: ps →
          ¬ endPieces <:+: .byte b0 :: .byte b1 :: p :: ps := by
        intro p ps hnb hps hin
        rcases List.infix_cons_iff.1 hin with hin | hin
        · obtain ⟨u, hu⟩ := hin
          simp only [endPieces, List.cons_append, List.cons.injEq] at hu
          exact hnb _ hu.2.2.1.symm
        · rcases List.infix_cons_iff.1 hin with hin | hin
          · obtain ⟨u, hu⟩ := hin
            simp only [endPieces, List.cons_append, List.cons.injEq] at hu
            exact hnb _ hu.2.1.symm
          · rcases List.infix_cons_iff.1 hin with hin | hin
            · obtain ⟨u, hu⟩ := hin
              simp only [endPieces, List.cons_append, List.cons.injEq] at hu
              exact hnb _ hu.1.symm
            · exact hps hin
      by_cases hlf : ∃ s', s = 10#8 :: s'
      · obtain ⟨s', rfl⟩ := hlf
        match fuel, h with
        | 0, h => simp [textLoop] at h
        | fuel + 1, h =>
          have h' : textLoop mode fuel 13#8 10#8 (out ++ [10#8]) s' = .ok (t, r) := by
            rw [← h, textLoop]
            simp [hm]
          obtain ⟨ps, tail, stop, h1, h2, h3, h4, h5⟩ :=
            textLoop_sound hm fuel 13#8 10#8 _ s' t r h' (fun e => absurd e (by decide))
          refine ⟨.crlf :: ps, tail, stop, h1, ⟨trivial, h2⟩, ?_, ?_, fun hp =>
            noCr (by simp) (infix_tail (infix_tail (h5 hp)))⟩
          · rw [h3]; simp [textSource, Piece.source]
          · rw [h4]; simp [textMeaning, Piece.meaning]
      · obtain ⟨ps, tail, stop, h1, h2, h3, h4, h5⟩ :=
          textLoop_sound hm fuel b1 13#8 _ s t r h (fun _ => by
            cases s with
            | nil => decide
            | cons c s => exact fun e => hlf ⟨s, by simp at e; rw [e]⟩)
        refine ⟨.cr :: ps, tail, stop, h1, ⟨?_, h2⟩, ?_, ?_, fun hp =>
          noCr (by simp) (infix_tail (infix_tail (h5 hp)))⟩
        · rw [← next_eq ps stop tail, ← h3]
          show s.headD 0#8 ≠ 10#8
          cases s with
          | nil => decide
          | cons c s => exact fun e => hlf ⟨s, by simp at e; rw [e]⟩
        · rw [h3]; simp [textSource, Piece.source]
        · rw [h4]; simp [textMeaning, Piece.meaning]
    rw [if_neg hb13, if_neg (by rintro ⟨h1, rfl⟩; exact hcr h1 rfl)] at h
    obtain ⟨ps, tail, stop, h1, h2, h3, h4, h5⟩ :=
      textLoop_sound hm fuel b1 b _ s t r h (fun e => absurd e hb13)
    have hstop : b ≠ stop := by
      rcases h1 with ⟨hp, rfl, -⟩ | ⟨hp, rfl, -⟩
      · exact fun e => hlt ⟨e, hp⟩
      · exact fun e => hquo ⟨e, hp⟩
    refine ⟨.byte b :: ps, tail, stop, h1, ⟨⟨hb38, hb13, hstop⟩, h2⟩, ?_, ?_, fun hp hin => ?_⟩
    · rw [h3]; simp [textSource, Piece.source]
    · rw [h4]; simp [textMeaning, Piece.meaning]
    · rcases List.infix_cons_iff.1 hin with hin | hin
      · obtain ⟨u, hu⟩ := hin
        simp only [endPieces, List.cons_append, List.cons.injEq, Piece.byte.injEq] at hu
        exact he ⟨hu.1.symm, hu.2.1.symm, hu.2.2.1.symm, hp⟩
      · exact h5 hp hin

/-- The value of an attribute, from after the quote. -/
theorem readValue_piece {ps : List Piece} (h : ValueOk ps) (s : Bytes) :
    readText .quoted (textSource ps ++ 34#8 :: s) = .ok (textMeaning ps, s) := by
  rw [readText, textLoop_pieces (.inr ⟨rfl, rfl, rfl⟩) ps _ _ _ _ h (by simp) (by simp) (Nat.lt_succ_self _)]
  rfl

/-- What is read as the value of an attribute is one. -/
theorem readValue_sound {s t r : Bytes} (h : readText .quoted s = .ok (t, r)) :
    ∃ ps, ValueOk ps ∧ s = textSource ps ++ 34#8 :: r ∧ t = textMeaning ps := by
  obtain ⟨ps, tail, stop, h1, h2, h3, h4, -⟩ := textLoop_sound (by decide) _ _ _ _ _ _ _ h (by simp)
  rcases h1 with ⟨h1, -⟩ | ⟨-, rfl, rfl⟩
  · cases h1
  · exact ⟨ps, h2, h3, by simpa using h4⟩

/-- The text of an element. -/
theorem readPlain_piece {ps : List Piece} (h : TextOk ps) (s : Bytes) :
    readText .plain (textSource ps ++ 60#8 :: s) = .ok (textMeaning ps, 60#8 :: s) := by
  rw [readText, textLoop_pieces (.inl ⟨rfl, rfl, rfl⟩) ps _ _ _ _ h.pieces (by simp)
    (fun _ => noEnd_reset (by decide) h.noEnd) (Nat.lt_succ_self _)]
  rfl

/-- What is read as the text of an element is text. -/
theorem readPlain_sound {s t r : Bytes} (h : readText .plain s = .ok (t, r))
    (hs : ∀ b u, s = b :: u → ¬ XmlSpace b) :
    ∃ ps tail, TextOk ps ∧ r = 60#8 :: tail ∧ s = textSource ps ++ r ∧ t = textMeaning ps := by
  obtain ⟨ps, tail, stop, h1, h2, h3, h4, h5⟩ := textLoop_sound (by decide) _ _ _ _ _ _ _ h (by simp)
  rcases h1 with ⟨-, rfl, rfl⟩ | ⟨h1, -⟩
  · refine ⟨ps, tail, ⟨h2, ?_, infix_tail (infix_tail (h5 rfl))⟩, rfl, h3, by simpa using h4⟩
    intro b u hb
    exact hs b (u ++ 60#8 :: tail) (by rw [h3, hb]; rfl)
  · cases h1

/-! ## CDATA -/

/-- The end of a CDATA section is found. -/
theorem textLoop_cdata_end : ∀ (fuel : Nat) (b0 b1 : Byte) (out s t r : Bytes),
    textLoop .cdata fuel b0 b1 out s = .ok (t, r) → [93#8, 93#8, 62#8] <:+: b0 :: b1 :: s
  | 0, _, _, _, _, _, _, h => by simp [textLoop] at h
  | fuel + 1, _, _, _, [], _, _, h => by simp [textLoop] at h
  | fuel + 1, b0, b1, out, b :: s, t, r, h => by
    rw [textLoop] at h
    by_cases he : b0 = 93#8 ∧ b1 = 93#8 ∧ b = 62#8
    · obtain ⟨rfl, rfl, rfl⟩ := he
      exact ⟨[], s, rfl⟩
    have go : ∀ out', textLoop .cdata fuel b1 b out' s = .ok (t, r) →
        [93#8, 93#8, 62#8] <:+: b0 :: b1 :: b :: s := fun out' h' =>
      (textLoop_cdata_end fuel b1 b out' s t r h').trans (List.suffix_cons _ _).isInfix
    rw [if_neg (fun e => he ⟨e.1, e.2.1, e.2.2.1⟩), if_neg (fun e => he ⟨e.1, e.2.1, e.2.2.1⟩),
      if_neg (by rintro ⟨-, h⟩; cases h), if_neg (by rintro ⟨-, h⟩; cases h), if_neg (fun e => e.2 rfl)] at h
    split at h
    · exact go _ h
    · split at h
      · exact go _ h
      · exact go _ h

/-- The first occurrence of a marker. -/
theorem first_infix {m : Bytes} (hm : m ≠ []) : ∀ {s : Bytes}, m <:+: s →
    ∃ c r, s = c ++ m ++ r ∧ ∀ c' r', s = c' ++ m ++ r' → c.length ≤ c'.length
  | [], h => absurd (List.infix_nil.1 h) hm
  | b :: s, h => by
    by_cases hp : m <+: b :: s
    · obtain ⟨r, hr⟩ := hp
      exact ⟨[], r, by rw [← hr]; rfl, by simp⟩
    · obtain ⟨c, r, hc, hmin⟩ := first_infix hm ((List.infix_cons_iff.1 h).resolve_left hp)
      refine ⟨b :: c, r, by rw [hc]; rfl, ?_⟩
      intro c' r' h'
      cases c' with
      | nil => exact absurd ⟨r', by rw [h']; rfl⟩ hp
      | cons x c' =>
        simp only [List.cons_append, List.cons.injEq] at h'
        have := hmin c' r' h'.2
        simp only [List.length_cons]; omega

theorem no_infix_first {m c r s : Bytes} (h : s = c ++ m ++ r)
    (hmin : ∀ c' r', s = c' ++ m ++ r' → c.length ≤ c'.length) (hm : m ≠ []) : ¬ m <:+: c := by
  rintro ⟨c', r', rfl⟩
  have := hmin c' (r' ++ m ++ r) (by rw [h]; simp)
  have hl : 0 < m.length := List.length_pos_iff.2 hm
  simp only [List.length_append] at this
  omega

/-- What is read as a CDATA section is one. -/
theorem readCDataText_sound {s t r : Bytes} (h : readText .cdata s = .ok (t, r)) :
    ∃ c, ¬ str "]]>" <:+: c ∧ s = c ++ str "]]>" ++ r ∧ t = normNewlines c := by
  have e3 : str "]]>" = [93#8, 93#8, 62#8] := by decide
  have hin : [93#8, 93#8, 62#8] <:+: s := by
    have h1 := textLoop_cdata_end _ _ _ _ _ _ _ h
    rcases List.infix_cons_iff.1 h1 with h1 | h1
    · obtain ⟨u, hu⟩ := h1; simp at hu
    · rcases List.infix_cons_iff.1 h1 with h1 | h1
      · obtain ⟨u, hu⟩ := h1; simp at hu
      · exact h1
  obtain ⟨c, r', hc, hmin⟩ := first_infix (by simp) hin
  have hno := no_infix_first hc hmin (by simp)
  have hread := readText_cdata (c := c) hno r'
  rw [e3] at hread
  rw [List.append_assoc] at hc
  rw [hc, hread] at h
  cases h
  exact ⟨c, by rw [e3]; exact hno, by rw [e3, hc]; simp, textBack_norm c⟩

end Rbxlx
