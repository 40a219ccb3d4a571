import Verif.Spec.XmlProperty
import Verif.Rbxlx.CodecValue
import Verif.Rbxlx.Discard
/-!
# Reading the texts in a property tag: lemmas
-/
namespace Rbxlx
open Go Rbxfile Spec

/-! ## Integers -/

/-- The number that digits denote after others. -/
def decFrom (n : Nat) (ds : Bytes) : Nat := ds.foldl (fun n c => 10 * n + (c.toNat - 48)) n

theorem decFrom_le : ∀ (ds : Bytes) (n : Nat), n ≤ decFrom n ds
  | [], _ => Nat.le_refl _
  | c :: ds, n => by
    have := decFrom_le ds (10 * n + (c.toNat - 48))
    simp only [decFrom, List.foldl_cons] at *
    omega

theorem parseUintLoop_digits (max : Nat) : ∀ (ds rest : Bytes) (n : Nat), (∀ c ∈ ds, 48 ≤ c.toNat ∧ c.toNat ≤ 57) →
    n ≤ max → (rest = [] ∨ max < decFrom n ds) →
    parseUintLoop max n (ds ++ rest) = if decFrom n ds ≤ max then (decFrom n ds, .none) else (max, .range)
  | [], rest, n, _, h, hr => by
    have e : decFrom n [] = n := rfl
    rw [e] at hr ⊢
    rcases hr with rfl | hr
    · rw [if_pos h]; rfl
    · omega
  | c :: ds, rest, n, hd, h, hr => by
    have hc := hd c (by simp)
    simp only [List.cons_append, parseUintLoop, if_pos hc]
    have e : decFrom n (c :: ds) = decFrom (10 * n + (c.toNat - 48)) ds := rfl
    have hle := decFrom_le ds (10 * n + (c.toNat - 48))
    rw [e] at hr ⊢
    by_cases hm : max < 10 * n + (c.toNat - 48)
    · rw [if_pos hm, if_neg (by omega)]
    · rw [if_neg hm]
      exact parseUintLoop_digits max ds rest _ (fun c h => hd c (by simp [h])) (by omega) hr

theorem parseUintLoop_inv (max : Nat) : ∀ (s : Bytes) (n : Nat), (parseUintLoop max n s).2 ≠ .syntax →
    ∃ ds rest, s = ds ++ rest ∧ (∀ c ∈ ds, 48 ≤ c.toNat ∧ c.toNat ≤ 57) ∧ (s ≠ [] → ds ≠ []) ∧
      (rest = [] ∨ max < decFrom n ds)
  | [], n, _ => ⟨[], [], rfl, nofun, fun h => h, .inl rfl⟩
  | c :: s, n, h => by
    simp only [parseUintLoop] at h
    by_cases hc : 48 ≤ c.toNat ∧ c.toNat ≤ 57
    · rw [if_pos hc] at h
      by_cases hm : max < 10 * n + (c.toNat - 48)
      · refine ⟨[c], s, rfl, ?_, fun _ => by simp, .inr hm⟩
        simp only [List.mem_singleton]
        rintro x rfl
        exact hc
      · rw [if_neg hm] at h
        obtain ⟨ds, rest, rfl, h1, -, h3⟩ := parseUintLoop_inv max s _ h
        refine ⟨c :: ds, rest, rfl, ?_, fun _ => by simp, h3⟩
        simp only [List.mem_cons]
        rintro x (rfl | hx)
        · exact hc
        · exact h1 x hx
    · rw [if_neg hc] at h
      exact absurd rfl h

theorem decimal_eq (ds : Bytes) : decimal ds = decFrom 0 ds := rfl

theorem parseUint_text {bits n : Nat} {s : Bytes} (h : NatText bits s n) :
    parseUint bits s = if n < 2 ^ bits then (n, .none) else (2 ^ bits - 1, .range) := by
  obtain ⟨ds, rest, rfl, ⟨hne, hd⟩, rfl, hr⟩ := h
  have hp := Nat.two_pow_pos bits
  unfold parseUint
  rw [if_neg (by intro e; exact hne (List.append_eq_nil_iff.1 e).1),
    parseUintLoop_digits _ _ _ _ hd (by omega) (by rw [← decimal_eq]; rcases hr with h | h; exact .inl h; exact .inr (by omega)),
    ← decimal_eq]
  by_cases h : decimal ds < 2 ^ bits
  · rw [if_pos h, if_pos (by omega)]
  · rw [if_neg h, if_neg (by omega)]

theorem parseUint_inv {bits : Nat} {s : Bytes} (h : (parseUint bits s).2 ≠ .syntax) : ∃ n, NatText bits s n := by
  unfold parseUint at h
  by_cases hs : s = []
  · rw [if_pos hs] at h; exact absurd rfl h
  · rw [if_neg hs] at h
    obtain ⟨ds, rest, e, h1, h2, h3⟩ := parseUintLoop_inv _ s 0 h
    refine ⟨decimal ds, ds, rest, e, ⟨h2 hs, h1⟩, rfl, ?_⟩
    rw [decimal_eq]
    rcases h3 with h3 | h3
    · exact .inl h3
    · right; omega

/-- The numbers without a sign that are read are those that the text says. -/
theorem saysNat_iff (bits : Nat) (s : Bytes) (n : Nat) :
    SaysNat bits s n ↔ (parseUint bits s).2 ≠ .syntax ∧ (parseUint bits s).1 = n := by
  have hp := Nat.two_pow_pos bits
  constructor
  · rintro ⟨k, hk, rfl⟩
    rw [parseUint_text hk]
    split
    · refine ⟨nofun, ?_⟩; simp only; omega
    · refine ⟨nofun, ?_⟩; simp only; omega
  · rintro ⟨h1, rfl⟩
    obtain ⟨k, hk⟩ := parseUint_inv h1
    refine ⟨k, hk, ?_⟩
    rw [parseUint_text hk]
    split <;> (simp only; omega)

theorem natText_head {bits n : Nat} {s : Bytes} (h : NatText bits s n) : s ≠ [] ∧
    ∀ {c : Byte} {t : Bytes}, s = c :: t → c ≠ 43#8 ∧ c ≠ 45#8 := by
  obtain ⟨ds, rest, rfl, ⟨hne, hd⟩, -, -⟩ := h
  cases ds with
  | nil => exact absurd rfl hne
  | cons d ds =>
    refine ⟨by simp, ?_⟩
    intro c t e
    simp only [List.cons_append, List.cons.injEq] at e
    have := hd d (by simp)
    rw [← e.1]
    constructor <;> (rintro rfl; simp at this)

theorem pow_double {bits : Nat} (hb : 0 < bits) : 2 ^ bits = 2 * 2 ^ (bits - 1) := by
  obtain ⟨k, rfl⟩ : ∃ k, bits = k + 1 := ⟨bits - 1, by omega⟩
  simp only [Nat.pow_succ, Nat.add_sub_cancel]
  omega

theorem clampInt_eq (bits : Nat) (k : Int) : clampInt bits k =
    max (-((2 ^ (bits - 1) : Nat) : Int)) (min (((2 ^ (bits - 1) : Nat) : Int) - 1) k) := by
  simp [clampInt]

theorem parseInt_plus {bits : Nat} (s : Bytes) :
    parseInt bits (43#8 :: s) = (match parseUint bits s with
      | (_, .syntax) => (0, .syntax)
      | (un, _) => if 2 ^ (bits - 1) ≤ un then (((2 ^ (bits - 1) : Nat) : Int) - 1, .range)
          else ((un : Int), .none)) := by
  unfold parseInt
  simp only [reduceCtorEq, if_false]
  rcases parseUint bits s with ⟨a, b | b | b⟩ <;> simp

theorem parseInt_text {bits : Nat} (hb : 1 < bits) {s : Bytes} {k : Int} (h : IntText bits s k) :
    parseInt bits s = (clampInt bits k, if clampInt bits k = k then .none else .range) := by
  have hp := Nat.two_pow_pos (bits - 1)
  have hd := pow_double (bits := bits) (by omega)
  have h2 : 2 ≤ 2 ^ (bits - 1) := by
    have := Nat.pow_le_pow_right (n := 2) (by omega) (show 1 ≤ bits - 1 by omega)
    simpa using this
  have pos : ∀ {u n}, NatText bits u n → (match parseUint bits u with
      | (_, NumErr.syntax) => ((0 : Int), NumErr.syntax)
      | (un, _) => if 2 ^ (bits - 1) ≤ un then (((2 ^ (bits - 1) : Nat) : Int) - 1, .range)
          else ((un : Int), .none)) = (clampInt bits n, if clampInt bits n = n then .none else .range) := by
    intro u n hn
    rw [parseUint_text hn, clampInt_eq]
    generalize 2 ^ (bits - 1) = c at *
    by_cases h1 : n < 2 ^ bits
    · rw [if_pos h1]
      simp only
      by_cases h2 : c ≤ n
      · rw [if_pos h2, if_neg (by omega)]; congr 1; omega
      · rw [if_neg h2, if_pos (by omega)]; congr 1; omega
    · rw [if_neg h1]
      simp only
      rw [if_pos (by omega), if_neg (by omega)]; congr 1; omega
  rcases h with ⟨n, hn, rfl⟩ | ⟨u, n, rfl, hn, rfl⟩ | ⟨u, n, rfl, hn, rfl⟩
  · rw [parseInt_pos (natText_head hn).1 (natText_head hn).2]
    exact pos hn
  · rw [parseInt_plus]
    exact pos hn
  · rw [parseInt_neg, parseUint_text hn, clampInt_eq]
    generalize 2 ^ (bits - 1) = c at *
    by_cases h1 : n < 2 ^ bits
    · rw [if_pos h1]
      simp only
      by_cases h2 : c < n
      · rw [if_pos h2, if_neg (by omega)]; congr 1; omega
      · rw [if_neg h2, if_pos (by omega)]; congr 1; omega
    · rw [if_neg h1]
      simp only
      rw [if_pos (by omega), if_neg (by omega)]; congr 1; omega

theorem parseInt_inv {bits : Nat} {s : Bytes} (h : (parseInt bits s).2 ≠ .syntax) : ∃ k, IntText bits s k := by
  have key : ∀ u, (match parseUint bits u with
      | (_, NumErr.syntax) => ((0 : Int), NumErr.syntax)
      | (un, _) => if 2 ^ (bits - 1) ≤ un then (((2 ^ (bits - 1) : Nat) : Int) - 1, .range)
          else ((un : Int), .none)).2 ≠ .syntax → ∃ n, NatText bits u n := by
    intro u hu
    apply parseUint_inv
    intro e
    rcases hr : parseUint bits u with ⟨a, b⟩
    rw [hr] at hu e
    simp only at e
    subst e
    exact hu rfl
  cases s with
  | nil => exact absurd rfl h
  | cons c u =>
    by_cases h1 : c = 43#8
    · subst h1
      rw [parseInt_plus] at h
      obtain ⟨n, hn⟩ := key _ h
      exact ⟨_, .inr (.inl ⟨u, n, rfl, hn, rfl⟩)⟩
    · by_cases h2 : c = 45#8
      · subst h2
        rw [parseInt_neg] at h
        have : ∃ n, NatText bits u n := by
          apply parseUint_inv
          intro e
          rcases hr : parseUint bits u with ⟨a, b⟩
          rw [hr] at h e
          simp only at e
          subst e
          exact h rfl
        obtain ⟨n, hn⟩ := this
        exact ⟨_, .inr (.inr ⟨u, n, rfl, hn, rfl⟩)⟩
      · rw [parseInt_pos (by simp) (by intro c' t e; cases e; exact ⟨h1, h2⟩)] at h
        obtain ⟨n, hn⟩ := key _ h
        exact ⟨_, .inl ⟨n, hn, rfl⟩⟩

/-- The integers that are read are those that the text says. -/
theorem saysInt_iff {bits : Nat} (hb : 1 < bits) (w : Nat) (s : Bytes) (n : BitVec w) :
    SaysInt bits w s n ↔ (parseInt bits s).2 ≠ .syntax ∧ BitVec.ofInt w (parseInt bits s).1 = n := by
  constructor
  · rintro ⟨k, hk, rfl⟩
    rw [parseInt_text hb hk]
    refine ⟨?_, rfl⟩
    simp only
    split <;> nofun
  · rintro ⟨h1, rfl⟩
    obtain ⟨k, hk⟩ := parseInt_inv h1
    exact ⟨k, hk, by rw [parseInt_text hb hk]⟩

theorem overflows_iff {bits : Nat} (hb : 1 < bits) (s : Bytes) : Overflows bits s ↔ (parseInt bits s).2 = .range := by
  constructor
  · rintro ⟨k, hk, hne⟩
    rw [parseInt_text hb hk]
    simp only
    rw [if_neg hne]
  · intro h
    obtain ⟨k, hk⟩ := parseInt_inv (bits := bits) (s := s) (by rw [h]; nofun)
    refine ⟨k, hk, ?_⟩
    intro e
    rw [parseInt_text hb hk, if_pos e] at h
    cases h

/-! ## Numbers separated by whitespace -/

theorem blank_iff (c : Byte) : White c ↔ isSpace c = true := by
  have : ∀ c : Fin 256, (White (BitVec.ofNat 8 c.val)) ↔ isSpace (BitVec.ofNat 8 c.val) = true := by decide +kernel
  have h := this ⟨c.toNat, c.isLt⟩
  simpa using h

theorem takeWhile_span {α : Type} (p : α → Bool) : ∀ (a b : List α), (∀ x ∈ a, p x = true) →
    (∀ x u, b = x :: u → p x = false) → (a ++ b).takeWhile p = a ∧ (a ++ b).dropWhile p = b
  | [], b, _, hb => by
    cases b with
    | nil => exact ⟨rfl, rfl⟩
    | cons x u => simp [hb x u rfl]
  | y :: a, b, ha, hb => by
    obtain ⟨h1, h2⟩ := takeWhile_span p a b (fun x hx => ha x (by simp [hx])) hb
    simp [ha y (by simp), h1, h2]

theorem dropWhile_head {α : Type} (p : α → Bool) : ∀ (l : List α) (x : α) (u : List α), l.dropWhile p = x :: u → p x = false
  | [], _, _, h => by cases h
  | y :: l, x, u, h => by
    rw [List.dropWhile_cons] at h
    split at h
    · exact dropWhile_head p l x u h
    · rename_i hp; cases h; simpa using hp

theorem mem_takeWhile' {α : Type} (p : α → Bool) : ∀ (l : List α), ∀ x ∈ l.takeWhile p, p x = true
  | [], x, h => by cases h
  | y :: l, x, h => by
    rw [List.takeWhile_cons] at h
    split at h
    · rename_i hp
      rcases List.mem_cons.1 h with rfl | h
      · exact hp
      · exact mem_takeWhile' p l x h
    · cases h

theorem scanFloat_iff (F : FloatText) (b : Bytes) (f : F32) (rest : Bytes) : scanFloat F b = some (f, rest) ↔
    ∃ w sp, b = w ++ sp ++ rest ∧ (∀ c ∈ w, ¬ White c) ∧ sp ≠ [] ∧ (∀ c ∈ sp, White c) ∧
      (∀ c u, rest = c :: u → ¬ White c) ∧ F.parse32 w = some f := by
  constructor
  · intro h
    unfold scanFloat at h
    split at h
    · cases h
    · rename_i c u hc
      split at h
      · cases h
      · rename_i g hg
        simp only [Option.some.injEq, Prod.mk.injEq] at h
        obtain ⟨rfl, rfl⟩ := h
        refine ⟨_, (c :: u).takeWhile isSpace, ?_, ?_, ?_, ?_, ?_, hg⟩
        · rw [List.append_assoc, List.takeWhile_append_dropWhile, ← hc, List.takeWhile_append_dropWhile]
        · intro x hx
          have := mem_takeWhile' _ _ x hx
          rw [blank_iff]; simpa using this
        · have := dropWhile_head _ _ _ _ hc
          simp only [Bool.not_eq_eq_eq_not, Bool.not_false] at this
          simp [this]
        · intro x hx
          rw [blank_iff]
          exact mem_takeWhile' _ _ x hx
        · intro x v hx
          rw [blank_iff]
          simp [dropWhile_head _ _ _ _ hx]
  · rintro ⟨w, sp, rfl, hw, hne, hsp, hr, hf⟩
    have h1 := takeWhile_span (fun c => !isSpace c) w (sp ++ rest)
      (fun x hx => by have := hw x hx; rw [blank_iff] at this; simpa using this)
      (fun x u e => by
        cases sp with
        | nil => exact absurd rfl hne
        | cons y sp =>
          simp only [List.cons_append, List.cons.injEq] at e
          have := hsp y (by simp)
          rw [blank_iff] at this
          simp [← e.1, this])
    have h2 := takeWhile_span isSpace sp rest (fun x hx => (blank_iff x).1 (hsp x hx))
      (fun x u e => by have := hr x u e; rw [blank_iff] at this; simpa using this)
    unfold scanFloat
    rw [List.append_assoc, h1.1, h1.2]
    cases sp with
    | nil => exact absurd rfl hne
    | cons y sp =>
      simp only [List.cons_append] at h2 ⊢
      simp only [hf, h2.2]

theorem numbers_cons (F : FloatText) (f : F32) (fs : List F32) (b s : Bytes) :
    Numbers F (f :: fs) b s ↔ ∃ rest, scanFloat F b = some (f, rest) ∧ Numbers F fs rest s := by
  constructor
  · intro h
    cases h with
    | cons h1 h2 h3 h4 h5 h6 => exact ⟨_, (scanFloat_iff F _ _ _).2 ⟨_, _, rfl, h1, h2, h3, h4, h5⟩, h6⟩
  · rintro ⟨rest, h, hn⟩
    obtain ⟨w, sp, rfl, h1, h2, h3, h4, h5⟩ := (scanFloat_iff F _ _ _).1 h
    exact .cons h1 h2 h3 h4 h5 hn

theorem numbers_nil (F : FloatText) (b s : Bytes) : Numbers F [] b s ↔ b = s := by
  constructor
  · intro h; cases h; rfl
  · rintro rfl; exact .nil

theorem scanFloat_length {F : FloatText} {b : Bytes} {f : F32} {rest : Bytes} (h : scanFloat F b = some (f, rest)) :
    rest.length < b.length := by
  obtain ⟨w, sp, rfl, -, h2, -, -, -⟩ := (scanFloat_iff F _ _ _).1 h
  have := List.length_pos_iff.2 h2
  simp only [List.length_append]
  omega

theorem scanNumbers_iff (F : FloatText) : ∀ (fuel : Nat) (b : Bytes) (ks : List NumberKeypoint), b.length < fuel →
    (scanNumbers F fuel b = some ks ↔ Numbers F (ks.flatMap fun k => [k.time, k.value, k.envelope]) b [])
  | 0, b, ks, h => by omega
  | fuel + 1, [], ks, _ => by
    simp only [scanNumbers, Option.some.injEq]
    cases ks with
    | nil => simp [numbers_nil]
    | cons k ks =>
      simp only [List.flatMap_cons, List.cons_append, List.nil_append, numbers_cons]
      constructor
      · intro h; cases h
      · rintro ⟨r, h, -⟩; cases scanFloat_length h
  | fuel + 1, c :: b, ks, hf => by
    simp only [scanNumbers, Option.bind_eq_bind]
    constructor
    · intro h
      simp only [Option.bind_eq_some_iff] at h
      obtain ⟨⟨f1, b1⟩, h1, ⟨f2, b2⟩, h2, ⟨f3, b3⟩, h3, ks', h4, h5⟩ := h
      simp only [Option.some.injEq] at h5
      subst h5
      simp only at h2 h3 h4
      have l1 := scanFloat_length h1
      have l2 := scanFloat_length h2
      have l3 := scanFloat_length h3
      simp only [List.flatMap_cons, List.cons_append, List.nil_append, numbers_cons]
      exact ⟨b1, h1, b2, h2, b3, h3, (scanNumbers_iff F fuel b3 ks' (by omega)).1 h4⟩
    · intro h
      cases ks with
      | nil => simp only [List.flatMap_nil, numbers_nil] at h; cases h
      | cons k ks =>
        simp only [List.flatMap_cons, List.cons_append, List.nil_append, numbers_cons] at h
        obtain ⟨b1, h1, b2, h2, b3, h3, h4⟩ := h
        have l1 := scanFloat_length h1
        have l2 := scanFloat_length h2
        have l3 := scanFloat_length h3
        simp only [h1, Option.bind_some, h2, h3, (scanNumbers_iff F fuel b3 ks (by omega)).2 h4]

theorem scanColors_iff (F : FloatText) : ∀ (fuel : Nat) (b : Bytes) (ks : List ColorKeypoint), b.length < fuel →
    (scanColors F fuel b = some ks ↔
      Numbers F (ks.flatMap fun k => [k.time, k.value.r, k.value.g, k.value.b, k.envelope]) b [])
  | 0, b, ks, h => by omega
  | fuel + 1, [], ks, _ => by
    simp only [scanColors, Option.some.injEq]
    cases ks with
    | nil => simp [numbers_nil]
    | cons k ks =>
      simp only [List.flatMap_cons, List.cons_append, List.nil_append, numbers_cons]
      constructor
      · intro h; cases h
      · rintro ⟨r, h, -⟩; cases scanFloat_length h
  | fuel + 1, c :: b, ks, hf => by
    simp only [scanColors, Option.bind_eq_bind]
    constructor
    · intro h
      simp only [Option.bind_eq_some_iff] at h
      obtain ⟨⟨f1, b1⟩, h1, ⟨f2, b2⟩, h2, ⟨f3, b3⟩, h3, ⟨f4, b4⟩, h4, ⟨f5, b5⟩, h5, ks', h6, h7⟩ := h
      simp only [Option.some.injEq] at h7
      subst h7
      simp only at h2 h3 h4 h5 h6
      have l1 := scanFloat_length h1
      have l2 := scanFloat_length h2
      have l3 := scanFloat_length h3
      have l4 := scanFloat_length h4
      have l5 := scanFloat_length h5
      simp only [List.flatMap_cons, List.cons_append, List.nil_append, numbers_cons]
      exact ⟨b1, h1, b2, h2, b3, h3, b4, h4, b5, h5, (scanColors_iff F fuel b5 ks' (by omega)).1 h6⟩
    · intro h
      cases ks with
      | nil => simp only [List.flatMap_nil, numbers_nil] at h; cases h
      | cons k ks =>
        simp only [List.flatMap_cons, List.cons_append, List.nil_append, numbers_cons] at h
        obtain ⟨b1, h1, b2, h2, b3, h3, b4, h4, b5, h5, h6⟩ := h
        have l1 := scanFloat_length h1
        have l2 := scanFloat_length h2
        have l3 := scanFloat_length h3
        have l4 := scanFloat_length h4
        have l5 := scanFloat_length h5
        simp only [h1, Option.bind_some, h2, h3, h4, h5, (scanColors_iff F fuel b5 ks (by omega)).2 h6]

end Rbxlx
