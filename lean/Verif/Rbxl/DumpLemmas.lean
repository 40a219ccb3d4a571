import Verif.Rbxl.DumpText
import Verif.Spec.Dump
import Verif.Go.DecimalText
import Verif.Props.Names
/-!
# The dump can be read in one way only
-/
namespace Rbxl
open Go Spec Rbxlx

/-- The text starts with something that may follow a number. -/
def Ends (r : Bytes) : Prop := ∃ c t, r = c :: t ∧ Stop c

/-- Two texts, if something that starts in the same way follows them, are the same only if `P`, and then the same follows. -/
def Same (P : Prop) (t u : Bytes) : Prop := ∀ r s, Ends r → Ends s → t ++ r = u ++ s → P ∧ r = s

theorem Ends.append {l : Bytes} (h : Ends l) (r : Bytes) : Ends (l ++ r) := by
  obtain ⟨c, t, rfl, hc⟩ := h
  exact ⟨c, t ++ r, rfl, hc⟩

theorem ends_newline (i : Nat) : Ends (newline i) := ⟨_, _, rfl, .inl rfl⟩

theorem Same.imp {P Q : Prop} {t u : Bytes} (h : Same P t u) (hpq : P → Q) : Same Q t u :=
  fun r s hr hs he => let ⟨a, b⟩ := h r s hr hs he; ⟨hpq a, b⟩

theorem Same.refl (t : Bytes) : Same True t t := fun _ _ _ _ he => ⟨trivial, List.append_cancel_left he⟩

theorem Same.lit {P : Prop} (l : Bytes) {t u : Bytes} (h : Same P t u) : Same P (l ++ t) (l ++ u) := by
  intro r s hr hs he
  rw [List.append_assoc, List.append_assoc] at he
  exact h r s hr hs (List.append_cancel_left he)

/-- A text that starts as something that may follow a number, or is empty. -/
def Opens (t : Bytes) : Prop := t = [] ∨ Ends t

theorem Opens.ends {t r : Bytes} (h : Opens t) (hr : Ends r) : Ends (t ++ r) := by
  rcases h with rfl | h
  · exact hr
  · exact h.append r

theorem Opens.newline (i : Nat) (r : Bytes) : Opens (newline i ++ r) := .inr ((ends_newline i).append r)

theorem Opens.lit {l : Bytes} (h : Ends l) (r : Bytes) : Opens (l ++ r) := .inr (h.append r)

theorem Same.seq {P Q : Prop} {t u t' u' : Bytes} (h : Same P t u) (h' : P → Same Q t' u') (ot : Opens t') (ou : Opens u') :
    Same (P ∧ Q) (t ++ t') (u ++ u') := by
  intro r s hr hs he
  rw [List.append_assoc, List.append_assoc] at he
  obtain ⟨hp, he⟩ := h _ _ (ot.ends hr) (ou.ends hs) he
  obtain ⟨hq, he⟩ := h' hp r s hr hs he
  exact ⟨⟨hp, hq⟩, he⟩

theorem words {t u r s : Bytes} (ht : ∀ c ∈ t, ¬ Stop c) (hu : ∀ c ∈ u, ¬ Stop c) (hr : Ends r) (hs : Ends s) (he : t ++ r = u ++ s) :
    t = u ∧ r = s := by
  induction t generalizing u with
  | nil =>
    cases u with
    | nil => exact ⟨rfl, he⟩
    | cons c u =>
      obtain ⟨d, r', rfl, hd⟩ := hr
      simp only [List.nil_append, List.cons_append, List.cons.injEq] at he
      exact absurd (he.1 ▸ hd) (hu c (by simp))
  | cons c t ih =>
    cases u with
    | nil =>
      obtain ⟨d, s', rfl, hd⟩ := hs
      simp only [List.nil_append, List.cons_append, List.cons.injEq] at he
      exact absurd (he.1 ▸ hd) (ht c (by simp))
    | cons d u =>
      simp only [List.cons_append, List.cons.injEq] at he
      obtain ⟨h1, h2⟩ := ih (u := u) (fun c hc => ht c (by simp [hc])) (fun c hc => hu c (by simp [hc])) he.2
      exact ⟨by rw [he.1, h1], h2⟩

theorem Same.word {t u : Bytes} (ht : ∀ c ∈ t, ¬ Stop c) (hu : ∀ c ∈ u, ¬ Stop c) : Same (t = u) t u :=
  fun _ _ hr hs he => words ht hu hr hs he

/-! ## Numbers -/

theorem not_stop {c : Byte} (h : c.toNat = 45 ∨ (48 ≤ c.toNat ∧ c.toNat ≤ 57)) : ¬ Stop c := by
  intro hs
  unfold Stop at hs
  rcases hs with rfl | rfl | rfl | rfl | rfl | rfl | rfl <;> simp at h

theorem same_uint (m n : Nat) : Same (m = n) (formatUint m) (formatUint n) :=
  (Same.word (fun c hc => not_stop (.inr (formatUint_digits m c hc))) (fun c hc => not_stop (.inr (formatUint_digits n c hc)))).imp
    fun h => by have := congrArg natOf h; rwa [natOf_formatUint, natOf_formatUint] at this

theorem formatInt_inj {m n : Int} (h : formatInt m = formatInt n) : m = n := by
  have key : ∀ k : Nat, ∀ t, formatUint k ≠ 45#8 :: t := fun k t h => by
    have := formatUint_digits k 45#8 (by rw [h]; simp)
    simp at this
  unfold formatInt at h
  split at h <;> split at h
  · simp only [List.cons.injEq, true_and] at h
    have := congrArg natOf h
    rw [natOf_formatUint, natOf_formatUint] at this
    omega
  · exact absurd h.symm (key _ _)
  · exact absurd h (key _ _)
  · have := congrArg natOf h
    rw [natOf_formatUint, natOf_formatUint] at this
    omega

theorem same_int (m n : Int) : Same (m = n) (formatInt m) (formatInt n) :=
  (Same.word (fun c hc => not_stop (formatInt_bytes m c hc)) (fun c hc => not_stop (formatInt_bytes n c hc))).imp formatInt_inj

theorem same_bits {w : Nat} (m n : BitVec w) : Same (m = n) (formatInt m.toInt) (formatInt n.toInt) :=
  (same_int _ _).imp BitVec.eq_of_toInt_eq

theorem same_ubits {w : Nat} (m n : BitVec w) : Same (m = n) (formatUint m.toNat) (formatUint n.toNat) :=
  (same_uint _ _).imp BitVec.eq_of_toNat_eq

theorem same_bool (a b : Bool) : Same (a = b) (boolText a) (boolText b) := by
  refine (Same.word ?_ ?_).imp ?_
  · cases a <;> decide +kernel
  · cases b <;> decide +kernel
  · cases a <;> cases b <;> decide +kernel

section
variable {T : DumpText}

theorem same32 (f g : F32) : Same (shown32 f = shown32 g) (short32 layoutShortG f) (short32 layoutShortG g) :=
  (Same.word (short_word _ _ layout_g _ _) (short_word _ _ layout_g _ _)).imp (short32_inj layout_g)

theorem same64 (f g : F64) : Same (shown64 f = shown64 g) (short64 layoutShortG f) (short64 layoutShortG g) :=
  (Same.word (short_word _ _ layout_g _ _) (short_word _ _ layout_g _ _)).imp (short64_inj layout_g)
end

/-! ## Texts of a fixed length -/

theorem Same.fixed {t u : Bytes} (h : t.length = u.length) : Same (t = u) t u :=
  fun _ _ _ _ he => List.append_inj he h

/-! ## Bytes and strings -/

theorem hexDigits2_inj {a b : Byte} (h : hexDigits 2 a.toNat = hexDigits 2 b.toNat) : a = b := by
  have := congrArg hexNum h
  rw [hexNum_hexDigits, hexNum_hexDigits] at this
  have := a.isLt; have := b.isLt
  exact BitVec.eq_of_toNat_eq (by omega)

theorem cells_unique (pad : Bool) : ∀ (n : Nat) (b c r s : Bytes), b.length = c.length → b.length ≤ n →
    cells pad n b ++ r = cells pad n c ++ s → b = c ∧ r = s
  | 0, [], [], r, s, _, _, he => ⟨rfl, he⟩
  | n + 1, [], [], r, s, _, _, he => ⟨rfl, List.append_cancel_left he⟩
  | n + 1, a :: b, d :: c, r, s, hl, hn, he => by
    simp only [cells, List.append_assoc] at he
    obtain ⟨h1, h2⟩ := List.append_inj he (by simp [hexDigits_length])
    obtain ⟨h3, h4⟩ := cells_unique pad n b c r s (by simpa using hl) (by simpa using hn) (List.append_cancel_left h2)
    exact ⟨by rw [hexDigits2_inj h1, h3], h4⟩

theorem rows_unique (pad : Bool) (i : Nat) : ∀ (n : Nat) (b c r s : Bytes), b.length = c.length → b.length ≤ n →
    rows pad i n b ++ r = rows pad i n c ++ s → b = c ∧ r = s
  | 0, [], [], r, s, _, _, he => ⟨rfl, he⟩
  | n + 1, [], [], r, s, _, _, he => ⟨rfl, he⟩
  | n + 1, a :: b, d :: c, r, s, hl, hn, he => by
    have hl' : b.length = c.length := by simpa using hl
    simp only [rows, List.append_assoc] at he
    have h1 := List.append_cancel_left (List.append_cancel_left he)
    obtain ⟨h2, h3⟩ := cells_unique pad 16 _ _ _ _ (by simp [hl']) (by simp) h1
    rw [h2] at h3
    have h4 := List.append_cancel_left (List.append_cancel_left (List.append_cancel_left h3))
    obtain ⟨h5, h6⟩ := rows_unique pad i n _ _ _ _ (by simp [hl']) (by simp at hn ⊢; omega) h4
    refine ⟨?_, h6⟩
    rw [← List.take_append_drop 16 (a :: b), h2, h5, List.take_append_drop]

theorem ends_lit (s : String) (h : ∃ c t, str s = c :: t ∧ Stop c := by exact ⟨_, _, rfl, by decide⟩) : Ends (str s) := h

theorem same_bytes (i : Nat) (b c : Bytes) : Same (b = c) (dumpBytes i b) (dumpBytes i c) := by
  unfold dumpBytes
  refine Same.lit _ (((same_uint b.length c.length).seq (Q := b = c) (fun hl => Same.lit _ ?_) (Opens.lit (ends_lit ")") _)
    (Opens.lit (ends_lit ")") _)).imp And.right)
  intro r s _ _ he
  rw [← hl] at he
  exact rows_unique _ _ _ _ _ _ _ hl (Nat.le_refl _) he

theorem same_string (T : DumpText) (i : Nat) (b c : Bytes) : Same (b = c) (dumpString T i b) (dumpString T i c) := by
  have key : ∀ b c r s : Bytes, (runes c).all T.isGraphic = false → Ends r →
      ¬ (str "(len:" ++ (formatUint b.length ++ (str ") " ++ quote T.isPrint b))) ++ r = dumpBytes i c ++ s := by
    intro b c r s hc hr he
    unfold dumpBytes at he
    simp only [List.append_assoc] at he
    have h1 := List.append_cancel_left he
    rw [show str ") " = str ")" ++ str " " by decide +kernel, List.append_assoc] at h1
    obtain ⟨_, h2⟩ := same_uint _ _ _ _ ((ends_lit ")").append _) ((ends_lit ")").append _) h1
    have h3 := List.append_cancel_left h2
    cases c with
    | nil => simp [runes, runesAux] at hc
    | cons a t =>
      simp only [List.length_cons, rows, newline, List.cons_append] at h3
      have := congrArg List.head? h3
      rw [show str " " = [32#8] by decide +kernel] at this
      simp at this
  unfold dumpString
  cases hb : (runes b).all T.isGraphic <;> cases hc : (runes c).all T.isGraphic
  · simp only [Bool.false_eq_true, if_false]; exact same_bytes i b c
  · simp only [Bool.false_eq_true, if_false, if_true]
    exact fun r s _ hs he => absurd he.symm (key _ _ _ _ hb hs)
  · simp only [Bool.false_eq_true, if_false, if_true]
    exact fun r s hr _ he => absurd he (key _ _ _ _ hc hr)
  · simp only [if_true]
    refine Same.lit _ (((same_uint b.length c.length).seq (Q := b = c) (fun hl => Same.lit _ ?_) (Opens.lit (ends_lit ") ") _)
      (Opens.lit (ends_lit ") ") _)).imp And.right)
    exact fun r s _ _ he => quote_unique _ he

/-! ## Labelled lines -/

/-- The lines of a block and its end. -/
def lines (i : Nat) (fs : List (String × Bytes)) : Bytes := (fs.flatMap fun f => field i f.1 f.2) ++ (newline i ++ str "}")

theorem opens_lines (i : Nat) : ∀ fs, Opens (lines i fs)
  | [] => .inr ((ends_newline i).append _)
  | f :: fs => by
    unfold lines field
    rw [List.flatMap_cons, List.append_assoc, List.append_assoc]
    exact Opens.newline _ _

theorem same_lines_nil (i : Nat) : Same True (lines i []) (lines i []) := Same.refl _

theorem same_lines (i : Nat) {P Q : Prop} {l : String} {t u : Bytes} {fs gs : List (String × Bytes)} (h : Same P t u)
    (h' : P → Same Q (lines i fs) (lines i gs)) : Same (P ∧ Q) (lines i ((l, t) :: fs)) (lines i ((l, u) :: gs)) := by
  have e : ∀ (v : Bytes) (hs : List (String × Bytes)), lines i ((l, v) :: hs) = (newline (i + 1) ++ (str l ++ str ": ")) ++ (v ++ lines i hs) := by
    intro v hs
    simp [lines, field, List.append_assoc]
  rw [e, e]
  exact Same.lit _ (h.seq h' (opens_lines i fs) (opens_lines i gs))

theorem same_block (i : Nat) {P : Prop} {fs gs : List (String × Bytes)} (h : Same P (lines i fs) (lines i gs)) :
    Same P (block i fs) (block i gs) := Same.lit _ h

/-- A labelled line followed by other text. -/
theorem same_field (i : Nat) {P Q : Prop} {l : String} {t u r s : Bytes} (h : Same P t u) (h' : P → Same Q r s) (hr : Opens r)
    (hs : Opens s) : Same (P ∧ Q) (field i l t ++ r) (field i l u ++ s) := by
  unfold field
  simp only [List.append_assoc]
  exact Same.lit _ (Same.lit _ (Same.lit _ (h.seq h' hr hs)))

theorem opens_field (i : Nat) (l : String) (t r : Bytes) : Opens (field i l t ++ r) := by
  unfold field
  rw [List.append_assoc]
  exact Opens.newline _ _

/-! ## Numbered lines -/

theorem opens_numbered (i k : Nat) : ∀ ts, Opens (numbered i k ts)
  | [] => .inl rfl
  | _ :: _ => Opens.newline _ _

theorem same_numbered {α β : Type} (i : Nat) (f f' : α → Bytes) (g : α → β) : ∀ (k : Nat) (l m : List α), l.length = m.length →
    (∀ a ∈ l, ∀ b ∈ m, Same (g a = g b) (f a) (f' b)) → Same (l.map g = m.map g) (numbered i k (l.map f)) (numbered i k (m.map f'))
  | _, [], [], _, _ => (Same.refl _).imp fun _ => rfl
  | k, a :: l, b :: m, hl, h => by
    simp only [List.map_cons, numbered]
    refine Same.lit _ (Same.lit _ (Same.lit _ (((h a (by simp) b (by simp)).seq (fun _ => same_numbered i f f' g (k + 1) l m
      (by simpa using hl) fun a ha b hb => h a (by simp [ha]) b (by simp [hb])) (opens_numbered _ _ _) (opens_numbered _ _ _)).imp ?_)))
    rintro ⟨h1, h2⟩
    rw [h1, h2]

/-! ## Values -/

section
variable {T : DumpText} {slack : Bytes → Nat} {e e' : BitVec 32 → Bytes → Res Bytes}

theorem same_vec3 (i : Nat) (v w : Vec3) : Same (shownVec3 v = shownVec3 w) (v.dump i) (w.dump i) := by
  refine (same_block i (same_lines i (same32 _ _) fun _ => same_lines i (same32 _ _) fun _ => same_lines i (same32 _ _) fun _ =>
    same_lines_nil i)).imp ?_
  rintro ⟨h1, h2, h3, _⟩
  simp [shownVec3, h1, h2, h3]

theorem same_vec2 (i : Nat) (a b c d : F32) : Same (shown32 a = shown32 c ∧ shown32 b = shown32 d) (dumpVector2 i a b) (dumpVector2 i c d) := by
  refine (same_block i (same_lines i (same32 _ _) fun _ => same_lines i (same32 _ _) fun _ => same_lines_nil i)).imp ?_
  rintro ⟨h1, h2, _⟩
  exact ⟨h1, h2⟩

theorem same_color3 (i : Nat) (a b c a' b' c' : F32) : Same (shown32 a = shown32 a' ∧ shown32 b = shown32 b' ∧ shown32 c = shown32 c')
    (dumpColor3 i a b c) (dumpColor3 i a' b' c') := by
  refine (same_block i (same_lines i (same32 _ _) fun _ => same_lines i (same32 _ _) fun _ => same_lines i (same32 _ _) fun _ =>
    same_lines_nil i)).imp ?_
  rintro ⟨h1, h2, h3, _⟩
  exact ⟨h1, h2, h3⟩

theorem same_rotLines (i : Nat) : ∀ l m : List F32, l.length = m.length → Same (l.map shown32 = m.map shown32)
    (l.flatMap fun f => newline i ++ short32 layoutShortG f) (m.flatMap fun f => newline i ++ short32 layoutShortG f)
  | [], [], _ => (Same.refl _).imp fun _ => rfl
  | a :: l, b :: m, hl => by
    have o : ∀ l : List F32, Opens (l.flatMap fun f => newline i ++ short32 layoutShortG f) := by
      intro l
      cases l with
      | nil => exact .inl rfl
      | cons a l => rw [List.flatMap_cons, List.append_assoc]; exact Opens.newline _ _
    simp only [List.flatMap_cons, List.append_assoc]
    refine Same.lit _ (((same32 a b).seq (fun _ => same_rotLines i l m (by simpa using hl)) (o l) (o m)).imp ?_)
    rintro ⟨h1, h2⟩
    rw [List.map_cons, List.map_cons, h1, h2]

theorem same_rot (i : Nat) (v w : Rot) : Same (shownRot v = shownRot w) (v.dump i) (w.dump i) := by
  unfold Rot.dump
  refine Same.lit _ (Same.lit _ (((same_rotLines (i + 2) [v.m0, v.m1, v.m2, v.m3, v.m4, v.m5, v.m6, v.m7, v.m8]
    [w.m0, w.m1, w.m2, w.m3, w.m4, w.m5, w.m6, w.m7, w.m8] rfl).seq (fun _ => Same.refl _) (Opens.newline _ _)
    (Opens.newline _ _)).imp ?_))
  rintro ⟨h, _⟩
  simp only [List.map_cons, List.map_nil, List.cons.injEq, and_true] at h
  simp [shownRot, h]

theorem same_nsk (i : Nat) (k l : NSK) : Same ((⟨shown32 k.time, shown32 k.value, shown32 k.envelope⟩ : NSK) =
    ⟨shown32 l.time, shown32 l.value, shown32 l.envelope⟩) (k.dump i) (l.dump i) := by
  refine (same_block i (same_lines i (same32 _ _) fun _ => same_lines i (same32 _ _) fun _ => same_lines i (same32 _ _) fun _ =>
    same_lines_nil i)).imp ?_
  rintro ⟨h1, h2, h3, _⟩
  rw [h1, h2, h3]

theorem same_csk (i : Nat) (k l : CSK) :
    Same ((⟨shown32 k.time, shown32 k.r, shown32 k.g, shown32 k.b, shown32 k.envelope⟩ : CSK) =
      ⟨shown32 l.time, shown32 l.r, shown32 l.g, shown32 l.b, shown32 l.envelope⟩) (k.dump i) (l.dump i) := by
  refine (same_block i (same_lines i (same32 _ _) fun _ => same_lines i (same_color3 _ _ _ _ _ _ _) fun _ =>
    same_lines i (same32 _ _) fun _ => same_lines_nil i)).imp ?_
  rintro ⟨h1, ⟨h2, h3, h4⟩, h5, _⟩
  rw [h1, h2, h3, h4, h5]

theorem same_sequence {α β : Type} (i : Nat) (f : α → Bytes) (g : α → β) (h : ∀ a b, Same (g a = g b) (f a) (f b)) (l m : List α) :
    Same (l.map g = m.map g) (dumpSequence i (l.map f)) (dumpSequence i (m.map f)) := by
  unfold dumpSequence
  rw [List.length_map, List.length_map]
  refine Same.lit _ (((same_uint l.length m.length).seq (Q := l.map g = m.map g) (fun hl => Same.lit _ ?_) (Opens.lit (ends_lit ") {") _)
    (Opens.lit (ends_lit ") {") _)).imp And.right)
  exact ((same_numbered _ f f g 0 l m hl fun a _ b _ => h a b).seq (fun _ => Same.refl _) (.inr (ends_lit "}")) (.inr (ends_lit "}"))).imp And.left

theorem same_phys (i : Nat) (cp a b c d e a' b' c' d' e') : Same (numbersShown (Val.canon (.physicalProperties cp a b c d e)) =
    numbersShown (Val.canon (.physicalProperties cp a' b' c' d' e')))
    (physFields i cp a b c d e ++ (newline i ++ str "}")) (physFields i cp a' b' c' d' e' ++ (newline i ++ str "}")) := by
  unfold physFields
  by_cases h : cp = 0#8
  · rw [if_pos h, if_pos h]
    refine (Same.refl _).imp fun _ => ?_
    simp [Val.canon, h]
  · rw [if_neg h, if_neg h]
    simp only [List.append_assoc]
    refine (same_field i (same32 _ _) (fun _ => same_field i (same32 _ _) (fun _ => same_field i (same32 _ _) (fun _ =>
      same_field i (same32 _ _) (fun _ => same_field i (same32 _ _) (fun _ => Same.refl _)
      (Opens.newline _ _) (Opens.newline _ _)) (opens_field _ _ _ _) (opens_field _ _ _ _)) (opens_field _ _ _ _) (opens_field _ _ _ _))
      (opens_field _ _ _ _) (opens_field _ _ _ _)) (opens_field _ _ _ _) (opens_field _ _ _ _)).imp ?_
    rintro ⟨h1, h2, h3, h4, h5, _⟩
    simp [Val.canon, h, numbersShown, h1, h2, h3, h4, h5]

theorem same_named {w : Nat} (name : BitVec w → Bytes) (hn : ∀ n, ∀ c ∈ name n, ¬ Stop c) (m n : BitVec w) :
    Same (m = n) (named (name m) m.toNat) (named (name n) n.toNat) := by
  unfold named
  refine ((Same.word (hn m) (hn n)).seq (fun _ => Same.lit _ ((same_ubits m n).seq (fun _ => Same.refl _) (.inr (ends_lit ")"))
    (.inr (ends_lit ")")))) (Opens.lit (ends_lit " (") _) (Opens.lit (ends_lit " (") _)).imp fun h => h.2.1

theorem weight_word (n : BitVec 16) : ∀ c ∈ Rbxfile.fontWeightString n, ¬ Stop c := by
  unfold Rbxfile.fontWeightString
  repeat' split
  all_goals decide +kernel

theorem style_word (n : Byte) : ∀ c ∈ Rbxfile.fontStyleString n, ¬ Stop c := by
  unfold Rbxfile.fontStyleString
  repeat' split
  all_goals decide +kernel

theorem same_block2 (i : Nat) {P Q : Prop} {k l : String} {t t' u u' : Bytes} (h1 : Same P t t') (h2 : Same Q u u') :
    Same (P ∧ Q) (block i [(k, t), (l, u)]) (block i [(k, t'), (l, u')]) :=
  (same_block i (same_lines i h1 fun _ => same_lines i h2 fun _ => same_lines_nil i)).imp fun h => ⟨h.1, h.2.1⟩

theorem same_block3 (i : Nat) {P Q R : Prop} {k l m : String} {t t' u u' v v' : Bytes} (h1 : Same P t t') (h2 : Same Q u u')
    (h3 : Same R v v') : Same (P ∧ Q ∧ R) (block i [(k, t), (l, u), (m, v)]) (block i [(k, t'), (l, u'), (m, v')]) :=
  (same_block i (same_lines i h1 fun _ => same_lines i h2 fun _ => same_lines i h3 fun _ => same_lines_nil i)).imp
    fun h => ⟨h.1, h.2.1, h.2.2.1⟩

theorem same_block4 (i : Nat) {P Q R S : Prop} {k l m n : String} {t t' u u' v v' w w' : Bytes} (h1 : Same P t t') (h2 : P → Same Q u u')
    (h3 : P → Same R v v') (h4 : Same S w w') : Same (P ∧ Q ∧ R ∧ S) (block i [(k, t), (l, u), (m, v), (n, w)])
      (block i [(k, t'), (l, u'), (m, v'), (n, w')]) :=
  (same_block i (same_lines i h1 fun hp => same_lines i (h2 hp) fun _ => same_lines i (h3 hp) fun _ => same_lines i h4 fun _ =>
    same_lines_nil i)).imp fun h => ⟨h.1, h.2.1, h.2.2.1, h.2.2.2.1⟩

theorem same_block6 (i : Nat) {P Q R S U V : Prop} {a b c d e f : String} {t1 t2 t3 t4 t5 t6 u1 u2 u3 u4 u5 u6 : Bytes}
    (h1 : Same P t1 u1) (h2 : Same Q t2 u2) (h3 : Same R t3 u3) (h4 : Same S t4 u4) (h5 : Same U t5 u5) (h6 : Same V t6 u6) :
    Same (P ∧ Q ∧ R ∧ S ∧ U ∧ V) (block i [(a, t1), (b, t2), (c, t3), (d, t4), (e, t5), (f, t6)])
      (block i [(a, u1), (b, u2), (c, u3), (d, u4), (e, u5), (f, u6)]) :=
  (same_block i (same_lines i h1 fun _ => same_lines i h2 fun _ => same_lines i h3 fun _ => same_lines i h4 fun _ =>
    same_lines i h5 fun _ => same_lines i h6 fun _ => same_lines_nil i)).imp
    fun h => ⟨h.1, h.2.1, h.2.2.1, h.2.2.2.1, h.2.2.2.2.1, h.2.2.2.2.2.1⟩

theorem same_cframe (i : Nat) (sp sp' : Byte) (r r' : Rot) (p p' : Vec3) :
    Same (shownVal (.cframe sp r p) = shownVal (.cframe sp' r' p')) (Val.dump T i (.cframe sp r p)) (Val.dump T i (.cframe sp' r' p')) := by
  simp only [Val.dump]
  have tail : ∀ Q : Prop, (shownVec3 p = shownVec3 p' → Q) → Same Q (field i "Position" (p.dump (i + 1)) ++ (newline i ++ str "}"))
      (field i "Position" (p'.dump (i + 1)) ++ (newline i ++ str "}")) := fun Q hQ =>
    (same_field i (same_vec3 _ _ _) (fun _ => Same.refl _) (Opens.newline _ _) (Opens.newline _ _)).imp fun h => hQ h.1
  have op : ∀ (sp : Byte) (r : Rot) (t : Bytes), Opens ((if sp = 0#8 then r.dump i else []) ++ (field i "Position" t ++ (newline i ++ str "}"))) := by
    intro sp r t
    by_cases h : sp = 0#8
    · rw [if_pos h]; unfold Rot.dump; rw [List.append_assoc]; exact Opens.newline _ _
    · rw [if_neg h]; exact opens_field _ _ _ _
  refine Same.lit _ ((same_field i (same_ubits sp sp') (Q := shownVal (.cframe sp r p) = shownVal (.cframe sp' r' p')) (fun hs => ?_)
    (op _ _ _) (op _ _ _)).imp And.right)
  subst hs
  by_cases h : sp = 0#8
  · rw [if_pos h, if_pos h]
    refine ((same_rot i r r').seq (fun _ => tail _ id) (opens_field _ _ _ _) (opens_field _ _ _ _)).imp ?_
    rintro ⟨h1, h2⟩
    simp [shownVal, Val.canon, h, numbersShown, h1, h2]
  · rw [if_neg h, if_neg h]
    refine tail _ fun h2 => ?_
    simp [shownVal, Val.canon, h, numbersShown, h2]

theorem same_cframeQuat (i : Nat) (sp sp' : Byte) (x y z w x' y' z' w' : F32) (p p' : Vec3) :
    Same (shownVal (.cframeQuat sp x y z w p) = shownVal (.cframeQuat sp' x' y' z' w' p')) (Val.dump T i (.cframeQuat sp x y z w p))
      (Val.dump T i (.cframeQuat sp' x' y' z' w' p')) := by
  simp only [Val.dump]
  refine Same.lit _ ((same_field i (same_ubits sp sp') (fun _ => same_field i (same32 x x') (fun _ => same_field i (same32 y y') (fun _ =>
    same_field i (same32 z z') (fun _ => same_field i (same32 w w') (fun _ => Same.lit _ ((same_vec3 _ p p').seq (fun _ => Same.refl _)
      (Opens.newline _ _) (Opens.newline _ _))) (Opens.lit (ends_lit "Position: ") _) (Opens.lit (ends_lit "Position: ") _))
      (opens_field _ _ _ _) (opens_field _ _ _ _)) (opens_field _ _ _ _) (opens_field _ _ _ _)) (opens_field _ _ _ _) (opens_field _ _ _ _))
      (opens_field _ _ _ _) (opens_field _ _ _ _)).imp ?_)
  rintro ⟨h0, h1, h2, h3, h4, h5, _⟩
  subst h0
  by_cases h : sp = 0#8 <;> simp [shownVal, Val.canon, h, numbersShown, h1, h2, h3, h4, h5]

/-- Values of the same type with the same dump are the same, as far as the dump shows them. -/
theorem same_val (i : Nat) (v w : Val) (ht : v.type = w.type) : Same (shownVal v = shownVal w) (v.dump T i) (w.dump T i) := by
  cases v <;> cases w <;> simp only [Val.type, reduceCtorEq] at ht
  case string s t => exact (same_string T i s t).imp fun h => by rw [h]
  case bool a b => exact (same_bool a b).imp fun h => by rw [h]
  case int a b => exact (same_bits a b).imp fun h => by rw [h]
  case float a b => exact (same32 a b).imp fun h => by simp only [shownVal, Val.canon, numbersShown, h]
  case double a b => exact (same64 a b).imp fun h => by simp only [shownVal, Val.canon, numbersShown, h]
  case udim => exact (same_block2 i (same32 _ _) (same_bits _ _)).imp fun ⟨h1, h2⟩ => by simp only [shownVal, Val.canon, numbersShown, h1, h2]
  case udim2 =>
    exact (same_block4 i (same32 _ _) (fun _ => same_bits _ _) (fun _ => same32 _ _) (same_bits _ _)).imp fun ⟨h1, h2, h3, h4⟩ => by
      simp only [shownVal, Val.canon, numbersShown, h1, h2, h3, h4]
  case ray =>
    exact (same_block6 i (same32 _ _) (same32 _ _) (same32 _ _) (same32 _ _) (same32 _ _) (same32 _ _)).imp
      fun ⟨h1, h2, h3, h4, h5, h6⟩ => by simp only [shownVal, Val.canon, numbersShown, h1, h2, h3, h4, h5, h6]
  case faces =>
    exact (same_block6 i (same_bool _ _) (same_bool _ _) (same_bool _ _) (same_bool _ _) (same_bool _ _) (same_bool _ _)).imp
      fun ⟨h1, h2, h3, h4, h5, h6⟩ => by rw [h1, h2, h3, h4, h5, h6]
  case axes => exact (same_block3 i (same_bool _ _) (same_bool _ _) (same_bool _ _)).imp fun ⟨h1, h2, h3⟩ => by rw [h1, h2, h3]
  case brickColor a b => exact (same_ubits a b).imp fun h => by rw [h]
  case color3 => exact (same_color3 i _ _ _ _ _ _).imp fun ⟨h1, h2, h3⟩ => by simp only [shownVal, Val.canon, numbersShown, h1, h2, h3]
  case vector2 => exact (same_vec2 i _ _ _ _).imp fun ⟨h1, h2⟩ => by simp only [shownVal, Val.canon, numbersShown, h1, h2]
  case vector3 v w => exact (same_vec3 i v w).imp fun h => by simp only [shownVal, Val.canon, numbersShown, h]
  case vector2int16 => exact (same_block2 i (same_bits _ _) (same_bits _ _)).imp fun ⟨h1, h2⟩ => by rw [h1, h2]
  case cframe => exact same_cframe i _ _ _ _ _ _
  case cframeQuat => exact same_cframeQuat i _ _ _ _ _ _ _ _ _ _ _ _
  case token a b => exact (same_ubits a b).imp fun h => by rw [h]
  case reference a b => exact (same_bits a b).imp fun h => by rw [h]
  case vector3int16 => exact (same_block3 i (same_bits _ _) (same_bits _ _) (same_bits _ _)).imp fun ⟨h1, h2, h3⟩ => by rw [h1, h2, h3]
  case numberSequence k l =>
    exact (same_sequence i _ _ (same_nsk (i + 1)) k l).imp fun h => by simp only [shownVal, Val.canon, numbersShown, h]
  case colorSequence k l =>
    exact (same_sequence i _ _ (same_csk (i + 1)) k l).imp fun h => by simp only [shownVal, Val.canon, numbersShown, h]
  case numberRange =>
    exact (same_block2 i (same32 _ _) (same32 _ _)).imp fun ⟨h1, h2⟩ => by
      simp only [shownVal, Val.canon, numbersShown, h1, h2]
  case rect =>
    exact (same_block2 i (same_vec2 _ _ _ _ _) (same_vec2 _ _ _ _ _)).imp fun ⟨⟨h1, h2⟩, h3, h4⟩ => by
      simp only [shownVal, Val.canon, numbersShown, h1, h2, h3, h4]
  case physicalProperties cp _ _ _ _ _ cp' _ _ _ _ _ =>
    simp only [Val.dump]
    have op : ∀ (cp : Byte) (a b c d e : F32), Opens (physFields i cp a b c d e ++ (newline i ++ str "}")) := by
      intro cp a b c d e
      unfold physFields
      by_cases h : cp = 0#8
      · rw [if_pos h]; exact Opens.newline _ _
      · rw [if_neg h, List.append_assoc]; exact opens_field _ _ _ _
    refine Same.lit _ ((same_field i (same_ubits cp cp') (fun h => ?_) (op _ _ _ _ _ _) (op _ _ _ _ _ _)).imp And.right)
    subst h
    exact same_phys i cp _ _ _ _ _ _ _ _ _ _
  case color3uint8 => exact (same_block3 i (same_ubits _ _) (same_ubits _ _) (same_ubits _ _)).imp fun ⟨h1, h2, h3⟩ => by rw [h1, h2, h3]
  case int64 a b => exact (same_bits a b).imp fun h => by rw [h]
  case sharedString a b => exact (same_ubits a b).imp fun h => by rw [h]
  case uniqueId r t n r' t' n' =>
    have hid : Same (r = r' ∧ t = t' ∧ n = n') (Rbxfile.uniqueIdString r t n) (Rbxfile.uniqueIdString r' t' n') :=
      (Same.fixed (by rw [(Props.C35_text_is_hex _ _ _).1, (Props.C35_text_is_hex _ _ _).1])).imp (Props.C35_text_injective _ _ _ _ _ _)
    refine (same_block4 i (Q := True) (R := True) hid (fun h => (same_bits _ _).imp fun _ => trivial) (fun h => ?_) (same_ubits _ _)).imp
      fun ⟨⟨h1, h2, h3⟩, _⟩ => by rw [h1, h2, h3]
    rw [h.2.1]
    exact Same.refl _
  case font => exact (same_block4 i (same_string T _ _ _) (fun _ => same_named _ weight_word _ _) (fun _ => same_named _ style_word _ _)
      (same_string T _ _ _)).imp fun ⟨h1, h2, h3, h4⟩ => by rw [h1, h2, h3, h4]

/-! ## Arrays -/

theorem toByte_inj {s t : TypeID} (h : s.toByte = t.toByte) : s = t := by
  cases s <;> cases t <;> first | rfl | (exact absurd h (by decide))

theorem same_type (s t : TypeID) : Same (s = t) (typeText s) (typeText t) := by
  unfold typeText
  refine Same.lit _ (((same_ubits s.toByte t.toByte).seq (Q := s = t) (fun h => ?_) (Opens.lit (ends_lit ") ") _)
    (Opens.lit (ends_lit ") ") _)).imp And.right)
  rw [toByte_inj h]
  exact (Same.refl _).imp fun _ => rfl

theorem same_vals (i : Nat) {t : TypeID} {vs ws : List Val} (hv : ∀ v ∈ vs, v.type = t) (hw : ∀ v ∈ ws, v.type = t) (hl : vs.length = ws.length)
    (k j : Nat) : Same (vs.map shownVal = ws.map shownVal) (numbered k 0 (vs.map fun v => v.dump T i) ++ (newline j ++ str "}"))
      (numbered k 0 (ws.map fun v => v.dump T i) ++ (newline j ++ str "}")) :=
  ((same_numbered k _ _ shownVal 0 vs ws hl fun v hv' w hw' => same_val i v w (by rw [hv v hv', hw w hw'])).seq
    (fun _ => Same.refl _) (Opens.newline _ _) (Opens.newline _ _)).imp And.left

/-- What does not start with `n`. -/
def NotN (t : Bytes) : Prop := ∀ r, Ends r → ∀ x, t ++ r ≠ 110#8 :: x

theorem notN_cons {c : Byte} {t : Bytes} (h : c ≠ 110#8) : NotN (c :: t) := fun _ _ _ he => h (List.cons.inj he).1

theorem notN_word {t : Bytes} (h : t.head? ≠ some 110#8) : NotN t := by
  intro r hr x he
  cases t with
  | nil =>
    obtain ⟨c, r, rfl, hc⟩ := hr
    simp only [List.nil_append, List.cons.injEq] at he
    rw [he.1] at hc
    exact absurd hc (by decide)
  | cons c t => simp only [List.cons_append, List.cons.injEq] at he; exact h (by rw [he.1]; rfl)

theorem notN_lit (s : String) (t : Bytes) (h : ∃ c u, str s = c :: u ∧ c ≠ 110#8 := by exact ⟨_, _, rfl, by decide⟩) : NotN (str s ++ t) := by
  obtain ⟨c, u, h1, h2⟩ := h
  rw [h1]
  exact notN_cons h2

theorem notN_digits {t : Bytes} (h : ∀ c ∈ t, c.toNat = 45 ∨ (48 ≤ c.toNat ∧ c.toNat ≤ 57)) : NotN t := by
  refine notN_word fun he => ?_
  cases t with
  | nil => cases he
  | cons c t =>
    simp only [List.head?_cons, Option.some.injEq] at he
    have := h c (by simp)
    rw [he] at this
    simp at this

theorem notN_int (n : Int) : NotN (formatInt n) := notN_digits fun c hc => formatInt_bytes n c hc

theorem notN_uint (n : Nat) : NotN (formatUint n) := notN_digits fun c hc => .inr (formatUint_digits n c hc)

theorem notN_bool (b : Bool) : NotN (boolText b) := by cases b <;> exact notN_word (by decide +kernel)

theorem notN_string (i : Nat) (s : Bytes) : NotN (dumpString T i s) := by
  unfold dumpString
  split
  · exact notN_lit "(len:" _
  · exact notN_lit "(len:" _

theorem notN_val (i : Nat) (v : Val) : NotN (v.dump T i) := by
  cases v
  case string s => exact notN_string i s
  case bool b => exact notN_bool b
  case int => exact notN_int _
  case float f => exact notN_word (short_head _ _ layout_g _ _)
  case double f => exact notN_word (short_head _ _ layout_g _ _)
  case brickColor => exact notN_uint _
  case token => exact notN_uint _
  case reference => exact notN_int _
  case int64 => exact notN_int _
  case sharedString => exact notN_uint _
  case numberSequence => exact notN_lit "(count:" _
  case colorSequence => exact notN_lit "(count:" _
  all_goals exact notN_lit "{" _

/-- A value with its flag. -/
def flagText (T : DumpText) (i : Nat) (p : Val × Bool) : Bytes := optText T i p.2 p.1

theorem same_flag (i : Nat) (p q : Val × Bool) (h : p.1.type = q.1.type) :
    Same ((shownVal p.1, p.2) = (shownVal q.1, q.2)) (flagText T i p) (flagText T i q) := by
  obtain ⟨v, a⟩ := p
  obtain ⟨w, b⟩ := q
  have e : ∀ x : Bytes, str "none (" ++ x = 110#8 :: (str "one (" ++ x) := fun x => rfl
  unfold flagText optText
  cases a <;> cases b <;> simp only [Bool.false_eq_true, if_false, if_true]
  · refine Same.lit _ (((same_val i v w h).seq (fun _ => Same.refl _) (.inr (ends_lit ")")) (.inr (ends_lit ")"))).imp fun h => ?_)
    rw [h.1]
  · intro r s _ hs he
    rw [List.append_assoc, e] at he
    exact absurd he.symm (notN_val i w s hs _)
  · intro r s hr _ he
    rw [List.append_assoc, e] at he
    exact absurd he (notN_val i v r hr _)
  · exact (same_val i v w h).imp fun h => by rw [h]

theorem optTexts_plain (i : Nat) (t : TypeID) (vs : List Val) (ps : List Bool) (hl : ps.length = vs.length) : ∀ n k, n + k = vs.length →
    optTexts T i (.plain t vs) ps n k = .ok (((vs.zip ps).drop k).map (flagText T i))
  | 0, k, h => by
    rw [optTexts, List.drop_eq_nil_of_le (by simp; omega)]
    rfl
  | n + 1, k, h => by
    have h1 : k < ps.length := by omega
    have h2 : k < vs.length := by omega
    rw [optTexts, List.getElem?_eq_getElem h1]
    simp only [Arr.get, List.getElem?_eq_getElem h2]
    rw [optTexts_plain i t vs ps hl n (k + 1) (by omega), List.drop_eq_getElem_cons (i := k) (by simp; omega)]
    simp [flagText, Res.ok_bind]

theorem zip_eq {α β : Type} : ∀ {l l' : List α} {m m' : List β}, m.length = l.length → m'.length = l'.length →
    l.zip m = l'.zip m' → l = l' ∧ m = m'
  | [], [], [], [], _, _, _ => ⟨rfl, rfl⟩
  | [], _ :: _, [], _ :: _, _, _, h => by simp at h
  | _ :: _, [], _ :: _, [], _, _, h => by simp at h
  | a :: l, b :: l', c :: m, d :: m', h1, h2, h => by
    simp only [List.zip_cons_cons, List.cons.injEq, Prod.mk.injEq] at h
    obtain ⟨h3, h4⟩ := zip_eq (by simpa using h1) (by simpa using h2) h.2
    exact ⟨by rw [h.1.1, h3], by rw [h.1.2, h4]⟩

/-- Arrays of the same type and length. -/
theorem same_arr (i : Nat) (a b : Arr) (ha : plainArr a) (hb : plainArr b) (ht : a.type = b.type) (hl : a.len = b.len) :
    ∃ t u, a.dump T i = .ok t ∧ b.dump T i = .ok u ∧ Same (shownArr a = shownArr b) t u := by
  rcases a with ⟨t, vs⟩ | ps | ⟨⟨t, vs⟩ | _ | _, ps⟩ <;> simp only [plainArr] at ha <;> try exact ha.elim
  all_goals rcases b with ⟨t', ws⟩ | qs | ⟨⟨t', ws⟩ | _ | _, qs⟩ <;> simp only [plainArr] at hb <;> try exact hb.elim
  · simp only [Arr.type] at ht
    subst ht
    refine ⟨_, _, rfl, rfl, Same.lit _ ((same_vals (i + 1) ha.2 hb.2 hl (i + 1) i).imp fun h => ?_)⟩
    simp only [shownArr, h]
  · exact absurd ht ha.1
  · exact absurd ht.symm hb.1
  · simp only [Arr.len] at hl
    refine ⟨_, _, by rw [Arr.dump, Arr.len, optTexts_plain _ _ _ _ ha.2.2 _ _ (by simp)]; rfl,
      by rw [Arr.dump, Arr.len, optTexts_plain _ _ _ _ hb.2.2 _ _ (by simp)]; rfl, ?_⟩
    refine Same.lit _ (((same_type t t').seq (Q := vs.map shownVal = ws.map shownVal ∧ ps = qs) (fun h => Same.lit _ ?_)
      (Opens.lit (ends_lit ") {") _) (Opens.lit (ends_lit ") {") _)).imp ?_)
    · subst h
      rw [List.drop_zero, List.drop_zero]
      refine ((same_numbered (i + 2) _ _ (fun p : Val × Bool => (shownVal p.1, p.2)) 0 (vs.zip ps) (ws.zip qs) (by simp; omega)
        fun p hp q hq => same_flag (i + 2) p q (by rw [ha.2.1 _ (List.of_mem_zip hp).1, hb.2.1 _ (List.of_mem_zip hq).1])).seq
          (fun _ => Same.refl _) (Opens.newline _ _) (Opens.newline _ _)).imp fun h => ?_
      have e : ∀ (vs : List Val) (ps : List Bool), (vs.zip ps).map (fun p : Val × Bool => (shownVal p.1, p.2)) = (vs.map shownVal).zip ps := by
        intro vs ps
        rw [List.zip_map_left]; rfl
      have h1 := h.1
      rw [e, e] at h1
      exact zip_eq (by simp [ha.2.2]) (by simp [hb.2.2]) h1
    · rintro ⟨rfl, h1, rfl⟩
      simp only [shownArr, h1]

/-! ## Chunks -/

theorem newline_ne {i j : Nat} (h : i < j) (x y : Bytes) : newline i ++ (str "}" ++ x) ≠ newline j ++ y := by
  have key : ∀ {i j : Nat}, i < j → List.replicate i 9#8 ++ (125#8 :: x) ≠ List.replicate j 9#8 ++ y := by
    intro i
    induction i with
    | zero =>
      intro j h he
      obtain ⟨j, rfl⟩ : ∃ k, j = k + 1 := ⟨j - 1, by omega⟩
      simp [List.replicate_succ] at he
    | succ i ih =>
      intro j h he
      obtain ⟨j, rfl⟩ : ∃ k, j = k + 1 := ⟨j - 1, by omega⟩
      simp only [List.replicate_succ, List.cons_append, List.cons.injEq, true_and] at he
      exact ih (by omega) he
  intro he
  exact key h (List.cons.inj he).2

/-- Lines that are indented more than the end of the block. -/
theorem same_until {α β : Type} {i j : Nat} (hij : i < j) (f : α → Bytes) (g : α → β) (h : ∀ a b, Same (g a = g b) (f a) (f b)) :
    ∀ l m : List α, Same (l.map g = m.map g) ((l.flatMap fun a => newline j ++ f a) ++ (newline i ++ str "}"))
      ((m.flatMap fun a => newline j ++ f a) ++ (newline i ++ str "}"))
  | [], [] => (Same.refl _).imp fun _ => rfl
  | [], b :: m => fun r s _ _ he => by
    simp only [List.flatMap_nil, List.nil_append, List.flatMap_cons, List.append_assoc] at he
    exact absurd he (newline_ne hij _ _)
  | a :: l, [] => fun r s _ _ he => by
    simp only [List.flatMap_nil, List.nil_append, List.flatMap_cons, List.append_assoc] at he
    exact absurd he.symm (newline_ne hij _ _)
  | a :: l, b :: m => by
    have op : ∀ l : List α, Opens ((l.flatMap fun a => newline j ++ f a) ++ (newline i ++ str "}")) := by
      intro l
      cases l with
      | nil => exact Opens.newline _ _
      | cons a l => rw [List.flatMap_cons, List.append_assoc, List.append_assoc]; exact Opens.newline _ _
    simp only [List.flatMap_cons, List.append_assoc]
    refine Same.lit _ (((h a b).seq (fun _ => same_until hij f g h l m) (op l) (op m)).imp ?_)
    rintro ⟨h1, h2⟩
    rw [List.map_cons, List.map_cons, h1, h2]

theorem metaTexts_eq (i : Nat) : ∀ vs, metaTexts T i vs = vs.flatMap fun p => newline (i + 1) ++ block (i + 1)
    [("Key", dumpString T (i + 2) p.1), ("Value", dumpString T (i + 2) p.2)]
  | [] => rfl
  | p :: vs => by rw [metaTexts, List.flatMap_cons, metaTexts_eq i vs]; simp [block, List.append_assoc]

/-- The links as pairs. -/
def linkPairs : List (BitVec 32) → List (BitVec 32) → List (Option (BitVec 32) × Option (BitVec 32))
  | [], [] => []
  | c :: cs, [] => (some c, none) :: linkPairs cs []
  | [], p :: ps => (none, some p) :: linkPairs [] ps
  | c :: cs, p :: ps => (some c, some p) :: linkPairs cs ps

theorem linkPairs_fst : ∀ cs ps, (linkPairs cs ps).filterMap Prod.fst = cs
  | [], [] => by simp [linkPairs]
  | c :: cs, [] => by simp [linkPairs, linkPairs_fst cs []]
  | [], p :: ps => by simp [linkPairs, linkPairs_fst [] ps]
  | c :: cs, p :: ps => by simp [linkPairs, linkPairs_fst cs ps]

theorem linkPairs_snd : ∀ cs ps, (linkPairs cs ps).filterMap Prod.snd = ps
  | [], [] => by simp [linkPairs]
  | c :: cs, [] => by simp [linkPairs, linkPairs_snd cs []]
  | [], p :: ps => by simp [linkPairs, linkPairs_snd [] ps]
  | c :: cs, p :: ps => by simp [linkPairs, linkPairs_snd cs ps]

theorem linkTexts_eq (i : Nat) : ∀ cs ps, linkTexts i cs ps =
    (linkPairs cs ps).flatMap fun p => newline (i + 2) ++ (parentText p.1 ++ (str " : " ++ parentText p.2))
  | [], [] => by rw [linkTexts, linkPairs]; rfl
  | c :: cs, [] => by rw [linkTexts, linkPairs, List.flatMap_cons, linkTexts_eq i cs []]; simp [List.append_assoc]
  | [], p :: ps => by rw [linkTexts, linkPairs, List.flatMap_cons, linkTexts_eq i [] ps]; simp [List.append_assoc]
  | c :: cs, p :: ps => by rw [linkTexts, linkPairs, List.flatMap_cons, linkTexts_eq i cs ps]; simp [List.append_assoc]

theorem same_parentText (m n : Option (BitVec 32)) : Same (m = n) (parentText m) (parentText n) := by
  have key : ∀ n : BitVec 32, str "invalid" ≠ formatInt n.toInt := by
    intro n h
    have := formatInt_bytes n.toInt 105#8 (by rw [← h]; decide +kernel)
    simp at this
  have wd : ∀ n, ∀ c ∈ parentText n, ¬ Stop c := by
    intro n
    cases n with
    | none => decide +kernel
    | some n => exact fun c hc => not_stop (formatInt_bytes _ c hc)
  refine (Same.word (wd m) (wd n)).imp fun h => ?_
  cases m <;> cases n <;> simp only [parentText] at h
  · rfl
  · exact absurd h (key _)
  · exact absurd h.symm (key _)
  · rw [BitVec.eq_of_toInt_eq (formatInt_inj h)]

theorem same_service (p q : BitVec 32 × Byte) : Same (p = q) (formatInt p.1.toInt ++ (str " (" ++ (formatUint p.2.toNat ++ str ")")))
    (formatInt q.1.toInt ++ (str " (" ++ (formatUint q.2.toNat ++ str ")"))) :=
  ((same_bits p.1 q.1).seq (fun _ => Same.lit _ ((same_ubits p.2 q.2).seq (fun _ => Same.refl _) (.inr (ends_lit ")")) (.inr (ends_lit ")"))))
    (Opens.lit (ends_lit " (") _) (Opens.lit (ends_lit " (") _)).imp fun h => Prod.ext h.1 h.2.1

theorem serviceTexts_eq : ∀ (ids : List (BitVec 32)) (gs : Bytes), gs.length = ids.length → serviceTexts ids gs =
    (ids.zip gs).map fun p => formatInt p.1.toInt ++ (str " (" ++ (formatUint p.2.toNat ++ str ")"))
  | [], [], _ => rfl
  | id :: ids, g :: gs, h => by rw [serviceTexts, serviceTexts_eq ids gs (by simpa using h)]; rfl

theorem same_inst (i : Nat) (c d : InstChunk) (hc : c.isService = true → c.getService.length = c.ids.length)
    (hd : d.isService = true → d.getService.length = d.ids.length) : ∃ t u, Body.dump T e i m (.inst c) = .ok t ∧ Body.dump T e' i n (.inst d) = .ok u ∧
      Same (c.canon = d.canon) t u := by
  refine ⟨_, _, rfl, rfl, Same.lit _ (Same.lit _ (((same_bits c.classID d.classID).seq (fun _ => Same.lit _ (Same.lit _
    ((same_string T _ c.className d.className).seq (fun _ => Same.lit _ (Same.lit _ ((same_uint c.ids.length d.ids.length).seq
      (Q := c.isService = d.isService ∧ c.ids = d.ids ∧ (c.isService = true → c.getService = d.getService))
      (fun hl => ?_) ?_ ?_))) (Opens.newline _ _) (Opens.newline _ _)))) (Opens.newline _ _) (Opens.newline _ _)).imp ?_))⟩
  · cases h1 : c.isService <;> cases h2 : d.isService <;> simp only [Bool.false_eq_true, if_false, if_true]
    · refine Same.lit _ (((same_numbered (i + 2) _ _ id 0 c.ids d.ids hl fun a _ b _ => same_bits a b).seq (fun _ => Same.refl _)
        (Opens.newline _ _) (Opens.newline _ _)).imp fun h => ?_)
      have := h.1
      rw [List.map_id, List.map_id] at this
      exact ⟨trivial, this, nofun⟩
    · intro r s _ _ he
      rw [show str ") (service) {" = str ") " ++ str "(service) {" by decide +kernel, show str ") {" = str ") " ++ str "{" by decide +kernel] at he
      simp only [List.append_assoc] at he
      have := congrArg List.head? (List.append_cancel_left he)
      rw [show str "{" = [123#8] by decide +kernel, show str "(service) {" = 40#8 :: str "service) {" by decide +kernel] at this
      simp at this
    · intro r s _ _ he
      rw [show str ") (service) {" = str ") " ++ str "(service) {" by decide +kernel, show str ") {" = str ") " ++ str "{" by decide +kernel] at he
      simp only [List.append_assoc] at he
      have := congrArg List.head? (List.append_cancel_left he)
      rw [show str "{" = [123#8] by decide +kernel, show str "(service) {" = 40#8 :: str "service) {" by decide +kernel] at this
      simp at this
    · have hcs := hc h1
      have hds := hd h2
      rw [serviceTexts_eq _ _ hcs, serviceTexts_eq _ _ hds]
      refine Same.lit _ (((same_numbered (i + 2) _ _ id 0 (c.ids.zip c.getService) (d.ids.zip d.getService) (by simp; omega)
        fun a _ b _ => same_service a b).seq (fun _ => Same.refl _) (Opens.newline _ _) (Opens.newline _ _)).imp fun h => ?_)
      have := h.1
      rw [List.map_id, List.map_id] at this
      obtain ⟨h3, h4⟩ := zip_eq hcs hds this
      exact ⟨trivial, h3, fun _ => h4⟩
  · by_cases h : c.isService = true
    · rw [if_pos h]; exact Opens.lit (ends_lit ") (service) {") _
    · rw [if_neg h]; exact Opens.lit (ends_lit ") {") _
  · by_cases h : d.isService = true
    · rw [if_pos h]; exact Opens.lit (ends_lit ") (service) {") _
    · rw [if_neg h]; exact Opens.lit (ends_lit ") {") _
  · rintro ⟨h1, h2, _, h3, h4, h5⟩
    obtain ⟨c1, c2, c3, c4, c5⟩ := c
    obtain ⟨d1, d2, d3, d4, d5⟩ := d
    simp only [InstChunk.canon] at *
    subst h1 h2 h3 h4
    cases c4
    · rfl
    · simp [h5 rfl]

theorem same_links (i : Nat) (cs ps cs' ps' : List (BitVec 32)) :
    Same (cs = cs' ∧ ps = ps') (linkTexts i cs ps ++ (newline i ++ str "}")) (linkTexts i cs' ps' ++ (newline i ++ str "}")) := by
  rw [linkTexts_eq, linkTexts_eq]
  refine (same_until (i := i) (j := i + 2) (by omega) _ id (fun a b => ?_) (linkPairs cs ps) (linkPairs cs' ps')).imp fun h => ?_
  · exact ((same_parentText a.1 b.1).seq (fun _ => Same.lit _ (same_parentText a.2 b.2)) (Opens.lit (ends_lit " : ") _)
      (Opens.lit (ends_lit " : ") _)).imp fun h => Prod.ext h.1 h.2
  · rw [List.map_id, List.map_id] at h
    exact ⟨by rw [← linkPairs_fst cs ps, h, linkPairs_fst], by rw [← linkPairs_snd cs ps, h, linkPairs_snd]⟩

theorem same_shared (i : Nat) (p q : Bytes × Bytes) : Same (p = q) (sharedText i p) (sharedText i q) :=
  (same_block2 (i + 2) (same_bytes _ _ _) (same_bytes _ _ _)).imp fun h => Prod.ext h.1 h.2

theorem opens_class (i : Nat) (o : Option InstChunk) (j : Nat) (r : Bytes) : Opens (classText T i o ++ (newline j ++ r)) := by
  cases o with
  | none => exact Opens.newline _ _
  | some c => unfold classText; rw [List.append_assoc]; exact Opens.lit (ends_lit " (count:") _

theorem same_props (i : Nat) (p q : Option Arr) (hp : ∀ a, p = some a → plainArr a) (hq : ∀ a, q = some a → plainArr a) :
    ∃ t u, propsText T i p = .ok t ∧ propsText T i q = .ok u ∧ Opens (t ++ (newline i ++ str "}")) ∧ Opens (u ++ (newline i ++ str "}")) ∧
      Same (p.map shownArr = q.map shownArr) (t ++ (newline i ++ str "}")) (u ++ (newline i ++ str "}")) := by
  have one : ∀ a, plainArr a → ∃ t, a.dump T (i + 1) = .ok t := fun a ha =>
    let ⟨t, _, h, _⟩ := same_arr (i + 1) a a ha ha rfl rfl; ⟨t, h⟩
  have ev : ∀ a t, a.dump T (i + 1) = .ok t → propsText T i (some a) = .ok (newline (i + 1) ++ (str "Properties: (count:" ++
      (formatUint a.len ++ (str ", " ++ (typeText a.type ++ (str ") " ++ t)))))) := by
    intro a t h
    rw [propsText, h]; rfl
  cases p with
  | none =>
    cases q with
    | none => exact ⟨_, _, rfl, rfl, Opens.newline _ _, Opens.newline _ _, (Same.refl _).imp fun _ => rfl⟩
    | some b =>
      obtain ⟨u, hu⟩ := one b (hq b rfl)
      refine ⟨_, _, rfl, ev b u hu, Opens.newline _ _, by rw [List.append_assoc]; exact Opens.newline _ _, fun r s _ _ he => ?_⟩
      simp only [List.nil_append, List.append_assoc] at he
      exact absurd he (newline_ne (by omega) _ _)
  | some a =>
    cases q with
    | none =>
      obtain ⟨t, ht⟩ := one a (hp a rfl)
      refine ⟨_, _, ev a t ht, rfl, by rw [List.append_assoc]; exact Opens.newline _ _, Opens.newline _ _, fun r s _ _ he => ?_⟩
      simp only [List.nil_append, List.append_assoc] at he
      exact absurd he.symm (newline_ne (by omega) _ _)
    | some b =>
      obtain ⟨t, ht⟩ := one a (hp a rfl)
      obtain ⟨u, hu⟩ := one b (hq b rfl)
      refine ⟨_, _, ev a t ht, ev b u hu, by rw [List.append_assoc]; exact Opens.newline _ _,
        by rw [List.append_assoc]; exact Opens.newline _ _, ?_⟩
      simp only [List.append_assoc]
      refine Same.lit _ (Same.lit _ (((same_uint a.len b.len).seq (Q := shownArr a = shownArr b) (fun hl => Same.lit _ (((same_type a.type b.type).seq
        (Q := shownArr a = shownArr b) (fun hty => Same.lit _ ?_) (Opens.lit (ends_lit ") ") _) (Opens.lit (ends_lit ") ") _)).imp And.right))
        (Opens.lit (ends_lit ", ") _) (Opens.lit (ends_lit ", ") _)).imp fun h => by rw [Option.map_some, Option.map_some, h.2]))
      obtain ⟨t', u', h1, h2, h3⟩ := same_arr (i + 1) a b (hp a rfl) (hq b rfl) hty hl
      rw [ht] at h1
      rw [hu] at h2
      cases h1
      cases h2
      exact (h3.seq (fun _ => Same.refl _) (Opens.newline _ _) (Opens.newline _ _)).imp And.left

/-- The class of a property chunk is shown in the same way. -/
def SameClasses (T : DumpText) (m n : Map (BitVec 32) InstChunk) : Prop := ∀ i id, classText T i (m.get? id) = classText T i (n.get? id)

theorem Same.close {P : Prop} {t u : Bytes} (i : Nat) (h : Same P t u) : Same P (t ++ (newline i ++ str "}")) (u ++ (newline i ++ str "}")) :=
  (h.seq (fun _ => Same.refl _) (Opens.newline _ _) (Opens.newline _ _)).imp And.left

theorem same_body (i : Nat) (m n : Map (BitVec 32) InstChunk) (hmn : SameClasses T m n) (b c : Body) (hb : plainBody b) (hc : plainBody c)
    (hs : b.sig = c.sig) : ∃ t u, b.dump T e i m = .ok t ∧ c.dump T e' i n = .ok u ∧
      Same (shownBody b = shownBody c) (t ++ (newline i ++ str "}")) (u ++ (newline i ++ str "}")) := by
  cases b <;> cases c <;> simp only [plainBody] at hb hc <;> simp only [Body.sig] at hs
  all_goals first
    | exact absurd hs (by decide)
    | exact absurd hs hb.1 | exact absurd hs hb.2.1 | exact absurd hs hb.2.2.1 | exact absurd hs hb.2.2.2.1
    | exact absurd hs hb.2.2.2.2.1 | exact absurd hs hb.2.2.2.2.2
    | exact absurd hs.symm hc.1 | exact absurd hs.symm hc.2.1 | exact absurd hs.symm hc.2.2.1 | exact absurd hs.symm hc.2.2.2.1
    | exact absurd hs.symm hc.2.2.2.2.1 | exact absurd hs.symm hc.2.2.2.2.2
    | exact hb.elim | exact hc.elim | skip
  case inst.inst c d =>
    obtain ⟨t, u, h1, h2, h3⟩ := same_inst (T := T) (m := m) (n := n) (e := e) (e' := e') i c d hb hc
    exact ⟨t, u, h1, h2, (h3.close i).imp fun h => by rw [shownBody, shownBody, h]⟩
  case prop.prop c d =>
    obtain ⟨t, u, h1, h2, h3, h4, h5⟩ := same_props i c.props d.props hb hc
    refine ⟨_, _, by rw [Body.dump, h1]; rfl, by rw [Body.dump, h2]; rfl, ?_⟩
    simp only [List.append_assoc]
    refine Same.lit _ (Same.lit _ (((same_bits c.classID d.classID).seq (Q := c.name = d.name ∧ c.props.map shownArr = d.props.map shownArr)
      (fun hid => ?_) (opens_class _ _ _ _) (opens_class _ _ _ _)).imp fun ⟨h1, h2, h3⟩ => ?_))
    · rw [hid, hmn]
      exact Same.lit _ (Same.lit _ (Same.lit _ ((same_string T _ _ _).seq (fun _ => h5) h3 h4)))
    · simp only [shownBody, h1, h2, h3]
  case parent.parent c d =>
    refine ⟨_, _, rfl, rfl, ?_⟩
    simp only [List.append_assoc]
    refine Same.lit _ (Same.lit _ (((same_ubits c.version d.version).seq (fun _ => Same.lit _ (Same.lit _ (same_links i c.children c.parents
      d.children d.parents))) (Opens.newline _ _) (Opens.newline _ _)).imp fun ⟨h1, h2, h3⟩ => ?_))
    obtain ⟨c1, c2, c3⟩ := c
    obtain ⟨d1, d2, d3⟩ := d
    simp only at h1 h2 h3
    rw [h1, h2, h3]
  case metadata.metadata vs ws =>
    refine ⟨_, _, rfl, rfl, ?_⟩
    rw [metaTexts_eq, metaTexts_eq]
    simp only [List.append_assoc]
    have op : ∀ l : List (Bytes × Bytes), Opens ((l.flatMap fun p => newline (i + 1) ++ block (i + 1)
        [("Key", dumpString T (i + 2) p.1), ("Value", dumpString T (i + 2) p.2)]) ++ (newline i ++ str "}")) := by
      intro l
      cases l with
      | nil => exact Opens.newline _ _
      | cons a l => rw [List.flatMap_cons, List.append_assoc, List.append_assoc]; exact Opens.newline _ _
    refine Same.lit _ (Same.lit _ (((same_uint vs.length ws.length).seq (fun _ => same_until (by omega) _ id (fun a b => ?_) vs ws) (op vs)
      (op ws)).imp fun ⟨_, h⟩ => ?_))
    · exact (same_block2 (i + 1) (same_string T _ _ _) (same_string T _ _ _)).imp fun h => Prod.ext h.1 h.2
    · rw [List.map_id, List.map_id] at h
      rw [h]
  case shared.shared c d =>
    refine ⟨_, _, rfl, rfl, Same.close i (Same.lit _ (Same.lit _ (((same_ubits c.version d.version).seq (fun _ => Same.lit _ (Same.lit _
      ((same_uint c.values.length d.values.length).seq (Q := c.values = d.values) (fun hl => Same.lit _ ?_)
      (Opens.lit (ends_lit ") {") _) (Opens.lit (ends_lit ") {") _)))) (Opens.newline _ _) (Opens.newline _ _)).imp fun ⟨h1, _, h2⟩ => ?_)))⟩
    · refine ((same_numbered (i + 2) _ _ id 0 c.values d.values hl fun a _ b _ => same_shared i a b).close (i + 1)).imp fun h => ?_
      rwa [List.map_id, List.map_id] at h
    · obtain ⟨c1, c2⟩ := c
      obtain ⟨d1, d2⟩ := d
      simp only at h1 h2
      rw [h1, h2]
  case end_.end_ s t => exact ⟨_, _, rfl, rfl, Same.close i (Same.lit _ (Same.lit _ ((same_string T _ s t).imp fun h => by rw [h])))⟩
  case unknown.unknown s b s' c =>
    exact ⟨_, _, rfl, rfl, Same.close i (Same.lit _ (Same.lit _ ((same_bytes _ b c).imp fun h => by rw [hs, h])))⟩

theorem upperHex2_inj {a b : Byte} (h : upperHex2 a = upperHex2 b) : a = b := by
  have key : ∀ m n : Nat, m < 16 → n < 16 → upperHex m = upperHex n → m = n := by
    intro m n hm hn h
    have := congrArg BitVec.toNat h
    unfold upperHex at this
    simp only [BitVec.toNat_ofNat] at this
    split at this <;> split at this <;> omega
  unfold upperHex2 at h
  simp only [List.cons.injEq, and_true] at h
  have := a.isLt; have := b.isLt
  have h1 := key _ _ (by omega) (by omega) h.1
  have h2 := key _ _ (by omega) (by omega) h.2
  exact BitVec.eq_of_toNat_eq (by omega)

theorem same_sig (s t : BitVec 32) : Same (s = t) (dumpSig s) (dumpSig t) := by
  obtain ⟨a, b, c, d, h1⟩ : ∃ a b c d, le32 s = [a, b, c, d] := ⟨_, _, _, _, rfl⟩
  obtain ⟨a', b', c', d', h2⟩ : ∃ a b c d, le32 t = [a, b, c, d] := ⟨_, _, _, _, rfl⟩
  have l : ∀ x : BitVec 32, (sigString x).length = 4 := fun x => by simp [sigString]
  intro r q _ _ he
  unfold dumpSig at he
  rw [h1, h2] at he
  simp only [List.append_assoc] at he
  obtain ⟨_, he⟩ := List.append_inj he (by rw [l, l])
  have he := List.append_cancel_left he
  have e : ∀ w x y z : Byte, List.intercalate (str " ") ([w, x, y, z].map upperHex2) = upperHex2 w ++ (str " " ++ (upperHex2 x ++ (str " " ++
      (upperHex2 y ++ (str " " ++ upperHex2 z))))) := fun w x y z => by
    simp [List.intercalate, List.intersperse]
  rw [e, e] at he
  simp only [List.append_assoc] at he
  obtain ⟨k1, he⟩ := List.append_inj he rfl
  obtain ⟨k2, he⟩ := List.append_inj (List.append_cancel_left he) rfl
  obtain ⟨k3, he⟩ := List.append_inj (List.append_cancel_left he) rfl
  obtain ⟨k4, he⟩ := List.append_inj (List.append_cancel_left he) rfl
  refine ⟨?_, List.append_cancel_left he⟩
  have : le32 s = le32 t := by
    rw [h1, h2, upperHex2_inj k1, upperHex2_inj k2, upperHex2_inj k3, upperHex2_inj k4]
  have h3 := readLe32_le32 s []
  rw [this, readLe32_le32] at h3
  simpa using h3.symm

theorem chunk_unique (k : Nat) (g g' : Map (BitVec 32) (Nat × InstChunk)) (m n : Map (BitVec 32) InstChunk) (hmn : SameClasses T m n)
    (c d : Chunk) (hc : plainBody c.body) (hd : plainBody d.body) :
    ∃ t u, c.dump T slack 1 k g m = .ok (newline 1 ++ t) ∧ d.dump T slack 1 k g' n = .ok (newline 1 ++ u) ∧
      Same (shownChunk c = shownChunk d) t u := by
  obtain ⟨t, _, ht, _⟩ := same_body (T := T) (e := erroredText T slack 1 g m c.compressed) (e' := erroredText T slack 1 g m c.compressed)
    1 m m (fun _ _ => rfl) c.body c.body hc hc rfl
  obtain ⟨u, _, hu, _⟩ := same_body (T := T) (e := erroredText T slack 1 g' n d.compressed) (e' := erroredText T slack 1 g' n d.compressed)
    1 n n (fun _ _ => rfl) d.body d.body hd hd rfl
  refine ⟨_, _, by rw [Chunk.dump, ht]; rfl, by rw [Chunk.dump, hu]; rfl, ?_⟩
  simp only [List.append_assoc]
  refine Same.lit _ (Same.lit _ (Same.lit _ ?_))
  have op : ∀ (c : Chunk) (r : Bytes), Opens ((if c.compressed then str " (compressed) {" else str " (uncompressed) {") ++ r) := by
    intro c r
    split
    · exact Opens.lit (ends_lit " (compressed) {") _
    · exact Opens.lit (ends_lit " (uncompressed) {") _
  refine ((same_sig c.body.sig d.body.sig).seq (Q := shownChunk c = shownChunk d) (fun hs => ?_) (op _ _) (op _ _)).imp And.right
  obtain ⟨t', u', h1, h2, h3⟩ := same_body (T := T) (e := erroredText T slack 1 g m c.compressed)
    (e' := erroredText T slack 1 g' n d.compressed) 1 m n hmn c.body d.body hc hd hs
  rw [ht] at h1
  rw [hu] at h2
  cases h1
  cases h2
  cases hx : c.compressed <;> cases hy : d.compressed <;> simp only [Bool.false_eq_true, if_false, if_true]
  · exact (Same.lit _ h3).imp fun h => by simp only [shownChunk, h, hx, hy]
  · intro r s _ _ he
    rw [show str " (uncompressed) {" = 32#8 :: 40#8 :: 117#8 :: str "ncompressed) {" by decide +kernel,
      show str " (compressed) {" = 32#8 :: 40#8 :: 99#8 :: str "ompressed) {" by decide +kernel] at he
    simp at he
  · intro r s _ _ he
    rw [show str " (uncompressed) {" = 32#8 :: 40#8 :: 117#8 :: str "ncompressed) {" by decide +kernel,
      show str " (compressed) {" = 32#8 :: 40#8 :: 99#8 :: str "ompressed) {" by decide +kernel] at he
    simp at he
  · exact (Same.lit _ h3).imp fun h => by simp only [shownChunk, h, hx, hy]

theorem sameClasses_add {m n : Map (BitVec 32) InstChunk} (hmn : SameClasses T m n) {b c : Body} (h : shownBody b = shownBody c) :
    SameClasses T (addClass m b) (addClass n c) := by
  cases b <;> cases c <;> simp only [shownBody, reduceCtorEq, Body.inst.injEq] at h <;> try exact hmn
  case inst.inst c d =>
    intro i id
    simp only [addClass]
    have h1 := congrArg InstChunk.classID h
    have h2 := congrArg InstChunk.className h
    have h3 := congrArg InstChunk.ids h
    simp only [InstChunk.canon] at h1 h2 h3
    by_cases hid : c.classID = id
    · rw [← hid, Map.get?_set_self, h1, Map.get?_set_self]
      simp only [classText, h2, h3]
    · rw [Map.get?_set_ne _ _ (Ne.symm hid), Map.get?_set_ne _ _ (by rw [← h1]; exact Ne.symm hid)]
      exact hmn i id

theorem dump_addClass (k : Nat) (g : Map (BitVec 32) (Nat × InstChunk)) (m : Map (BitVec 32) InstChunk) (c : Chunk)
    (h : plainBody c.body) : c.dump T slack 1 k g (addClass m c.body) = c.dump T slack 1 k g m := by
  obtain ⟨b, z⟩ := c
  cases b <;> first | rfl | exact h.elim

theorem decoded_of_plain (g : Map (BitVec 32) (Nat × InstChunk)) {b : Body} (h : plainBody b) : b.decoded T.spill slack g = b := by
  cases b <;> first | rfl | exact h.elim

/-- The text of the chunks never panics. -/
theorem dumpChunks_ok : ∀ (l : List Chunk) (k : Nat) (g : Map (BitVec 32) (Nat × InstChunk)) (m : Map (BitVec 32) InstChunk),
    (∀ c ∈ l, plainBody c.body) → ∃ t, dumpChunks T slack k g m l = .ok t ∧ Opens t
  | [], _, _, _, _ => ⟨[], rfl, .inl rfl⟩
  | c :: l, k, g, m, h => by
    have hd := decoded_of_plain (T := T) (slack := slack) g (h c (by simp))
    obtain ⟨t, _, h1, _⟩ := chunk_unique (T := T) (slack := slack) k g g (addClass m c.body) (addClass m c.body) (fun _ _ => rfl) c c (h c (by simp)) (h c (by simp))
    obtain ⟨u, h2, _⟩ := dumpChunks_ok l (k + 1) (addGroup k g c.body) (addClass m c.body) fun c hc => h c (by simp [hc])
    refine ⟨_, by rw [dumpChunks, hd, h1, Res.ok_bind, h2]; rfl, by rw [List.append_assoc]; exact Opens.newline _ _⟩

theorem dumpChunks_unique : ∀ (l l' : List Chunk) (k : Nat) (g g' : Map (BitVec 32) (Nat × InstChunk)) (m n : Map (BitVec 32) InstChunk)
    (t u : Bytes), SameClasses T m n → (∀ c ∈ l, plainBody c.body) → (∀ c ∈ l', plainBody c.body) →
    dumpChunks T slack k g m l = .ok t → dumpChunks T slack k g' n l' = .ok u →
    Same (l.map shownChunk = l'.map shownChunk) (t ++ (newline 0 ++ str "}")) (u ++ (newline 0 ++ str "}"))
  | [], [], _, _, _, _, _, t, u, _, _, _, ht, hu => by
    cases ht; cases hu
    exact (Same.refl _).imp fun _ => rfl
  | [], d :: l', k, g, g', m, n, t, u, _, _, h', ht, hu => by
    have hd := decoded_of_plain (T := T) (slack := slack) g' (h' d (by simp))
    cases ht
    obtain ⟨x, _, h1, _⟩ := chunk_unique (T := T) (slack := slack) k g' g' (addClass n d.body) (addClass n d.body) (fun _ _ => rfl) d d (h' d (by simp)) (h' d (by simp))
    obtain ⟨y, h2, _⟩ := dumpChunks_ok (T := T) (slack := slack) l' (k + 1) (addGroup k g' d.body) (addClass n d.body) fun c hc => h' c (by simp [hc])
    rw [dumpChunks, hd, h1, Res.ok_bind, h2] at hu
    cases hu
    intro r s _ _ he
    simp only [List.nil_append, List.append_assoc] at he
    exact absurd he (newline_ne (by omega) _ _)
  | c :: l, [], k, g, g', m, n, t, u, _, h, _, ht, hu => by
    have hd := decoded_of_plain (T := T) (slack := slack) g (h c (by simp))
    cases hu
    obtain ⟨x, _, h1, _⟩ := chunk_unique (T := T) (slack := slack) k g g (addClass m c.body) (addClass m c.body) (fun _ _ => rfl) c c (h c (by simp)) (h c (by simp))
    obtain ⟨y, h2, _⟩ := dumpChunks_ok (T := T) (slack := slack) l (k + 1) (addGroup k g c.body) (addClass m c.body) fun c hc => h c (by simp [hc])
    rw [dumpChunks, hd, h1, Res.ok_bind, h2] at ht
    cases ht
    intro r s _ _ he
    simp only [List.nil_append, List.append_assoc] at he
    exact absurd he.symm (newline_ne (by omega) _ _)
  | c :: l, d :: l', k, g, g', m, n, t, u, hmn, h, h', ht, hu => by
    have hd := decoded_of_plain (T := T) (slack := slack) g (h c (by simp))
    have hd' := decoded_of_plain (T := T) (slack := slack) g' (h' d (by simp))
    obtain ⟨x, y, h1, h2, h3⟩ := chunk_unique (T := T) (slack := slack) k g g' m n hmn c d (h c (by simp)) (h' d (by simp))
    obtain ⟨x', hx, ox⟩ := dumpChunks_ok (T := T) (slack := slack) l (k + 1) (addGroup k g c.body) (addClass m c.body) fun c hc => h c (by simp [hc])
    obtain ⟨y', hy, oy⟩ := dumpChunks_ok (T := T) (slack := slack) l' (k + 1) (addGroup k g' d.body) (addClass n d.body) fun c hc => h' c (by simp [hc])
    rw [dumpChunks, hd, dump_addClass _ _ _ _ (h c (by simp)), h1, Res.ok_bind, hx] at ht
    rw [dumpChunks, hd', dump_addClass _ _ _ _ (h' d (by simp)), h2, Res.ok_bind, hy] at hu
    cases ht
    cases hu
    simp only [List.append_assoc]
    have op : ∀ t, Opens t → Opens (t ++ (newline 0 ++ str "}")) := fun t ht => .inr (ht.ends ((ends_newline 0).append _))
    refine Same.lit _ ((h3.seq (fun hcd => dumpChunks_unique l l' (k + 1) _ _ _ _ x' y'
      (sameClasses_add hmn (congrArg Chunk.body hcd)) (fun c hc => h c (by simp [hc])) (fun c hc => h' c (by simp [hc])) hx hy)
      (op _ ox) (op _ oy)).imp fun ⟨a, b⟩ => ?_)
    rw [List.map_cons, List.map_cons, a, b]

/-- The text of a model. -/
theorem model_ok (f : FormatModel) (h : ∀ c ∈ f.chunks, plainBody c.body) : ∃ t, f.dump T slack = .ok t := by
  obtain ⟨t, ht, _⟩ := dumpChunks_ok (T := T) (slack := slack) f.chunks 0 [] [] h
  exact ⟨_, by rw [FormatModel.dump, ht]; rfl⟩

theorem model_unique (f g : FormatModel) (hf : ∀ c ∈ f.chunks, plainBody c.body) (hg : ∀ c ∈ g.chunks, plainBody c.body) (t : Bytes)
    (h1 : f.dump T slack = .ok t) (h2 : g.dump T slack = .ok t) : f.version = g.version ∧ f.classCount = g.classCount ∧
      f.instanceCount = g.instanceCount ∧ f.chunks.map shownChunk = g.chunks.map shownChunk := by
  obtain ⟨x, hx, ox⟩ := dumpChunks_ok (T := T) (slack := slack) f.chunks 0 [] [] hf
  obtain ⟨y, hy, oy⟩ := dumpChunks_ok (T := T) (slack := slack) g.chunks 0 [] [] hg
  rw [FormatModel.dump, hx] at h1
  rw [FormatModel.dump, hy] at h2
  have he := Res.ok.inj (h1.trans h2.symm)
  have e : str "\n}" = newline 0 ++ str "}" := by decide +kernel
  rw [e] at he
  have key := Same.lit (str "Version: ") ((same_ubits f.version g.version).seq (fun _ => Same.lit (str "\nClasses: ")
    ((same_ubits f.classCount g.classCount).seq (fun _ => Same.lit (str "\nInstances: ") ((same_ubits f.instanceCount g.instanceCount).seq
      (fun _ => Same.lit (str "\nChunks: {") (dumpChunks_unique f.chunks g.chunks 0 [] [] [] [] x y (fun _ _ => rfl) hf hg hx hy))
      (Opens.lit (ends_lit "\nChunks: {") _) (Opens.lit (ends_lit "\nChunks: {") _)))
      (Opens.lit (ends_lit "\nInstances: ") _) (Opens.lit (ends_lit "\nInstances: ") _)))
      (Opens.lit (ends_lit "\nClasses: ") _) (Opens.lit (ends_lit "\nClasses: ") _))
  obtain ⟨⟨a, b, c, d⟩, _⟩ := key (newline 0) (newline 0) (ends_newline 0) (ends_newline 0) (congrArg (· ++ newline 0) he)
  exact ⟨a, b, c, d⟩

end

end Rbxl
