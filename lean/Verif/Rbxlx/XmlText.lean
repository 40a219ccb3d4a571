import Verif.Rbxlx.XmlLayout
import Verif.Spec.XmlText
/-!
# The text of the file of a tree
-/
namespace Rbxlx
open Go Rbxfile Spec

/-! ## Characters -/

theorem decimalAux_numeral : ∀ (fuel n : Nat), n < fuel → decimalAux fuel n = XmlText.numeral n
  | 0, n, h => by omega
  | fuel + 1, n, h => by
    rw [decimalAux, XmlText.numeral]
    by_cases hn : n < 10
    · rw [if_pos hn, if_pos hn]; rfl
    · rw [if_neg hn, if_neg hn, decimalAux_numeral fuel (n / 10) (by omega)]; rfl

theorem formatUint_numeral (n : Nat) : formatUint n = XmlText.numeral n := decimalAux_numeral _ _ (by omega)

theorem formatInt_integer (n : Int) : formatInt n = XmlText.integer n := by
  unfold formatInt XmlText.integer
  rw [formatUint_numeral]
  rfl

theorem numbered_coded (b : Byte) : numbered b = XmlText.coded b := by
  unfold numbered XmlText.coded
  rw [formatUint_numeral]
  rfl

theorem escapeByte_character (b : Byte) : escapeByte b = XmlText.character b := by
  have e1 : ([b] = str "\"") = (b = 34#8) := by rw [show str "\"" = [34#8] from rfl]; simp
  have e2 : ([b] = str "'") = (b = 39#8) := by rw [show str "'" = [39#8] from rfl]; simp
  have e3 : ([b] = str "&") = (b = 38#8) := by rw [show str "&" = [38#8] from rfl]; simp
  have e4 : ([b] = str "<") = (b = 60#8) := by rw [show str "<" = [60#8] from rfl]; simp
  have e5 : ([b] = str ">") = (b = 62#8) := by rw [show str ">" = [62#8] from rfl]; simp
  have e6 : (b.toNat = 10) = (b = 10#8) := propext ⟨fun h => BitVec.eq_of_toNat_eq h, fun h => by rw [h]; rfl⟩
  have e7 : (b.toNat = 13) = (b = 13#8) := propext ⟨fun h => BitVec.eq_of_toNat_eq h, fun h => by rw [h]; rfl⟩
  unfold escapeByte XmlText.character
  rw [numbered_coded]
  simp only [e1, e2, e3, e4, e5, e6, e7]

theorem escape_quoted : ∀ (s : Bytes), escapeString false s = XmlText.quoted s
  | [] => rfl
  | b :: s => by
    rw [escapeString, Bool.false_and, if_neg Bool.false_ne_true, escapeByte_character, escape_quoted s]; rfl

theorem isSpace_decide (b : Byte) : isSpace b = decide (XmlSpace b) := by
  revert b
  have : ∀ x : Fin 256, isSpace (BitVec.ofFin x) = decide (XmlSpace (BitVec.ofFin x)) := by decide +kernel
  intro b
  exact this b.toFin

theorem escape_escaped : ∀ (s : Bytes), escapeString true s = XmlText.escaped s
  | [] => rfl
  | b :: s => by
    rw [escapeString, Bool.true_and, isSpace_decide]
    by_cases h : XmlSpace b
    · rw [if_pos (decide_eq_true h), escape_escaped s, numbered_coded]
      simp only [XmlText.escaped, List.takeWhile_cons, List.dropWhile_cons, h, decide_true, if_true, List.flatMap_cons,
        List.append_assoc]
    · rw [if_neg (by simp only [decide_eq_true_eq]; exact h), escape_quoted s, escapeByte_character]
      simp only [XmlText.escaped, List.takeWhile_cons, List.dropWhile_cons, h, decide_false, if_neg Bool.false_ne_true,
        List.flatMap_cons, List.flatMap_nil, List.nil_append]
      rfl

theorem fix_real (F : FloatText) (p : Nat) (f : F32) : fixFloatExp (F.format32 p f) = XmlText.real F p f := by
  unfold fixFloatExp XmlText.real
  generalize F.format32 p f = s
  simp only
  have key : ∀ s : Bytes, (s.idxOf? 101#8 = none ∧ s.dropWhile (fun c => decide (c ≠ 101#8)) = [] ∧
      s.takeWhile (fun c => decide (c ≠ 101#8)) = s) ∨
      ∃ m ex, s = m ++ 101#8 :: ex ∧ s.idxOf? 101#8 = some m.length ∧ s.dropWhile (fun c => decide (c ≠ 101#8)) = 101#8 :: ex ∧
        s.takeWhile (fun c => decide (c ≠ 101#8)) = m := by
    intro s
    induction s with
    | nil => exact .inl ⟨rfl, rfl, rfl⟩
    | cons c s ih =>
      by_cases hc : c = 101#8
      · subst hc
        exact .inr ⟨[], s, rfl, by simp [List.idxOf?_cons], by simp, by simp⟩
      · rcases ih with ⟨h1, h2, h3⟩ | ⟨m, ex, h1, h2, h3, h4⟩
        · exact .inl ⟨by simp [List.idxOf?_cons, hc, h1], by
            simp only [List.dropWhile_cons, ne_eq, hc, not_false_eq_true, decide_true, if_true]
            simpa using h2, by
            simp only [List.takeWhile_cons, ne_eq, hc, not_false_eq_true, decide_true, if_true]
            simpa using h3⟩
        · refine .inr ⟨c :: m, ex, by rw [h1]; rfl, by simp [List.idxOf?_cons, hc, h2], ?_, ?_⟩
          · simp only [List.dropWhile_cons, ne_eq, hc, not_false_eq_true, decide_true, if_true]
            simpa using h3
          · simp only [List.takeWhile_cons, ne_eq, hc, not_false_eq_true, decide_true, if_true, List.cons.injEq, true_and]
            simpa using h4
  rcases key s with ⟨h1, h2, h3⟩ | ⟨m, ex, h1, h2, h3, h4⟩
  · rw [h1, h2, h3]
  · rw [h2, h3, h4]
    simp only
    have e1 : s.drop (m.length + 2) = ex.drop 1 := by
      rw [h1, show m.length + 2 = m.length + (1 + 1) from rfl, ← List.drop_drop, List.drop_left]; rfl
    have e2 : s.take (m.length + 2) = m ++ 101#8 :: ex.take 1 := by
      rw [h1, List.take_append, List.take_of_length_le (by omega), show m.length + 2 - m.length = 1 + 1 by omega]
      rfl
    rw [e1, e2]
    have e3 : (ex.drop 1).length = ex.length - 1 := by simp
    split
    · simp only [List.append_assoc, List.cons_append, List.nil_append, e3]
    · rename_i h
      have : 3 - (ex.length - 1) = 0 := by omega
      rw [this, h1]
      simp only [List.replicate_zero, List.append_nil, List.append_assoc, List.cons_append, List.nil_append]
      rw [List.take_append_drop]

theorem broken_split : ∀ (s : Bytes), splitAt 72 72 s = XmlText.broken s := by
  intro s
  induction hn : s.length using Nat.strongRecOn generalizing s with
  | _ n ih =>
    rw [XmlText.broken]
    split
    · rename_i h; exact (splitAt_short 72 72 s h).1
    · rename_i h
      have hd : (s.drop 72).length = s.length - 72 := by simp
      have hl : (s.take 72).length = 72 := by simp; omega
      have ht := splitAt_short 72 72 (s.take 72) (by omega)
      conv => lhs; rw [← List.take_append_drop 72 s, splitAt_append, ht.1, ht.2, hl]
      rw [show 72 - 72 = 0 from rfl, (splitAt_zero (by omega) (fun e => by rw [e] at hd; simp at hd; omega)).1,
        ih _ (by rw [hd]; omega) (s.drop 72) rfl]
      simp only [List.append_assoc]
      rfl

theorem wrapped_wrap : ∀ (s : Bytes), wrapAt 72 0 s = XmlText.wrapped s := by
  intro s
  induction hn : s.length using Nat.strongRecOn generalizing s with
  | _ n ih =>
    rw [XmlText.wrapped]
    split
    · rename_i h; exact (wrapAt_short 72 0 s (by omega)).1
    · rename_i h
      have hd : (s.drop 72).length = s.length - 72 := by simp
      have hl : (s.take 72).length = 72 := by simp; omega
      have ht := wrapAt_line (l := 72) 0 (s.take 72) (fun e => by rw [e] at hl; cases hl) (by omega)
      conv => lhs; rw [← List.take_append_drop 72 s, wrapAt_append, ht.1, ht.2]
      rw [ih _ (by rw [hd]; omega) (s.drop 72) rfl]
      rfl

theorem flagBits_sum : ∀ (l : List Bool) (i : Nat),
    ((l.zipIdx i).map fun b : Bool × Nat => if b.1 then 2 ^ b.2 else 0).sum = 2 ^ i * flagBits l
  | [], i => by simp [flagBits]
  | b :: l, i => by
    rw [List.zipIdx_cons, List.map_cons, List.sum_cons, flagBits_sum l (i + 1), flagBits, Nat.pow_succ, Nat.mul_add]
    cases b
    · simp only [Bool.false_eq_true, if_false, Nat.mul_zero]; rw [Nat.mul_assoc]
    · simp only [if_true, Nat.mul_one]; rw [Nat.mul_assoc]

theorem flags_eq (l : List Bool) : formatUint (flagBits l) = XmlText.flags l := by
  unfold XmlText.flags
  rw [flagBits_sum l 0, formatUint_numeral]
  simp

theorem hexLower_digit (n : Nat) (h : n < 16) : hexLower[n]?.getD 0 = BitVec.ofNat 8 (if n < 10 then 48 + n else 87 + n) := by
  have : ∀ x : Fin 16, hexLower[x.val]?.getD 0 = BitVec.ofNat 8 (if x.val < 10 then 48 + x.val else 87 + x.val) := by decide +kernel
  exact this ⟨n, h⟩

theorem hexDigits_hexadecimal : ∀ (b : Bytes), hexDigits hexLower b = XmlText.hexadecimal (2 * b.length) (bigEndian b) := by
  intro b
  induction b using List.reverseRecOn with
  | nil => rfl
  | append_singleton b x ih =>
    have hb : bigEndian (b ++ [x]) = 256 * bigEndian b + x.toNat := by simp [bigEndian]
    have hx := x.isLt
    have e1 : (x >>> 4).toNat = x.toNat / 16 := by simp [BitVec.toNat_ushiftRight, Nat.shiftRight_eq_div_pow]
    have e2 : (x &&& 0x0F#8).toNat = x.toNat % 16 := by
      rw [BitVec.toNat_and, show (0x0F#8).toNat = 2 ^ 4 - 1 from rfl, Nat.and_two_pow_sub_one_eq_mod]
    rw [show 2 * (b ++ [x]).length = 2 * b.length + 1 + 1 by simp; omega, XmlText.hexadecimal, XmlText.hexadecimal, hb]
    have d1 : (256 * bigEndian b + x.toNat) / 16 / 16 = bigEndian b := by omega
    have d2 : (256 * bigEndian b + x.toNat) / 16 % 16 = x.toNat / 16 := by omega
    have d3 : (256 * bigEndian b + x.toNat) % 16 = x.toNat % 16 := by omega
    rw [d1, d2, d3, ← ih, hexDigits, List.flatMap_append]
    have a1 : hexAt hexLower (x >>> 4) = BitVec.ofNat 8 (if x.toNat / 16 < 10 then 48 + x.toNat / 16 else 87 + x.toNat / 16) := by rw [hexAt, e1, hexLower_digit _ (by omega)]
    have a2 : hexAt hexLower (x &&& 0x0F#8) = BitVec.ofNat 8 (if x.toNat % 16 < 10 then 48 + x.toNat % 16 else 87 + x.toNat % 16) := by rw [hexAt, e2, hexLower_digit _ (by omega)]
    simp only [List.flatMap_cons, List.flatMap_nil, List.append_nil, a1, a2, hexDigits, List.append_assoc, List.cons_append,
      List.nil_append]

theorem bigEndian_append (a b : Bytes) : bigEndian (a ++ b) = bigEndian a * 256 ^ b.length + bigEndian b := by
  induction b using List.reverseRecOn with
  | nil => simp [bigEndian]
  | append_singleton b x ih =>
    have h : ∀ c : Bytes, bigEndian (c ++ [x]) = 256 * bigEndian c + x.toNat := fun c => by simp [bigEndian]
    rw [← List.append_assoc, h, h, ih, List.length_append, List.length_singleton, Nat.pow_succ, Nat.mul_add, ← Nat.mul_assoc,
      Nat.mul_comm 256, Nat.mul_assoc, Nat.mul_comm 256 (256 ^ b.length)]
    omega

theorem bigEndian_be32 (v : BitVec 32) : bigEndian (be32 v) = v.toNat := by
  have := v.isLt
  simp only [be32, bigEndian, List.foldl, BitVec.toNat_setWidth, BitVec.toNat_ushiftRight, Nat.shiftRight_eq_div_pow]
  omega

theorem bigEndian_be64 (v : BitVec 64) : bigEndian (be64 v) = v.toNat := by
  have := v.isLt
  simp only [be64, bigEndian, List.foldl, BitVec.toNat_setWidth, BitVec.toNat_ushiftRight, Nat.shiftRight_eq_div_pow]
  omega

theorem uniqueId_hexadecimal (r : BitVec 64) (t i : BitVec 32) : hexDigits hexLower (be64 r ++ be32 t ++ be32 i) =
    XmlText.hexadecimal 32 (r.toNat * 2 ^ 64 + t.toNat * 2 ^ 32 + i.toNat) := by
  rw [hexDigits_hexadecimal, bigEndian_append, bigEndian_append, bigEndian_be32, bigEndian_be32, bigEndian_be64]
  have h1 : (be64 r ++ be32 t ++ be32 i).length = 16 := rfl
  have h2 : (be32 t).length = 4 := rfl
  have h3 : (be32 i).length = 4 := rfl
  have e : ∀ A B C : Nat, (A * 256 ^ 4 + B) * 256 ^ 4 + C = A * 2 ^ 64 + B * 2 ^ 32 + C := by intros; omega
  rw [h1, h2, h3, e]

/-! ## Elements -/

/-- The tag has the name and attributes, which can be written. -/
structure Ordinary (h : Head) (n : Bytes) (as : List (Bytes × Bytes)) : Prop where
  name : h.startName = n
  attr : h.attr = as
  endName : h.endName = []
  nonempty : h.empty = false
  noComment : h.comment = false
  tagName : checkName .tag n = true
  attrNames : ∀ a ∈ as, checkName .attr a.1 = true

mutual
/-- The tag is written as the element. -/
def Shown : Tag → XmlText.Element → Prop
  | t, .text n as s => Ordinary t.head n as ∧ t.head.cdata = none ∧ t.head.text = s ∧ t.tags = []
  | t, .cdata n as s => Ordinary t.head n as ∧ t.head.cdata = some s ∧ t.head.text = [] ∧ t.tags = []
  | t, .inner n as k s => Ordinary t.head n as ∧ t.head.cdata = none ∧ t.head.text = [] ∧ t.head.noIndent = true ∧
      ∃ u : Tag, t.tags = [u] ∧ Ordinary u.head k [] ∧ u.head.cdata = none ∧ u.head.text = s ∧ u.tags = []
  | t, .block n as es => Ordinary t.head n as ∧ t.head.cdata = none ∧ t.head.text = [] ∧ t.head.noIndent = false ∧
      ShownAll t.tags es
/-- The tags are written as the elements. -/
def ShownAll : List Tag → List XmlText.Element → Prop
  | [], [] => True
  | t :: ts, e :: es => Shown t e ∧ ShownAll ts es
  | [], _ :: _ => False
  | _ :: _, [] => False
end

theorem ShownAll.append : ∀ {ts us : List Tag} {es fs : List XmlText.Element}, ShownAll ts es → ShownAll us fs →
    ShownAll (ts ++ us) (es ++ fs)
  | [], us, [], fs, _, h => h
  | t :: ts, us, e :: es, fs, h1, h2 => ⟨h1.1, ShownAll.append h1.2 h2⟩
  | [], _, _ :: _, _, h, _ => h.elim
  | _ :: _, _, [], _, h, _ => h.elim

theorem ShownAll.isEmpty : ∀ {ts : List Tag} {es : List XmlText.Element}, ShownAll ts es → ts.isEmpty = es.isEmpty
  | [], [], _ => rfl
  | _ :: _, _ :: _, _ => rfl
  | [], _ :: _, h => h.elim
  | _ :: _, [], h => h.elim

theorem writeAttrs_eq : ∀ (as : List (Bytes × Bytes)), (∀ a ∈ as, checkName .attr a.1 = true) →
    writeAttrs as = as.flatMap fun a => str " " ++ a.1 ++ str "=\"" ++ XmlText.quoted a.2 ++ str "\""
  | [], _ => rfl
  | (n, v) :: as, h => by
    rw [writeAttrs, if_pos (h (n, v) (by simp)), writeAttrs_eq as fun a ha => h a (by simp [ha]), escape_quoted]
    rfl

theorem Ordinary.start {h : Head} {n : Bytes} {as : List (Bytes × Bytes)} (o : Ordinary h n as) :
    60#8 :: h.startName ++ writeAttrs h.attr ++ [62#8] = XmlText.start n as := by
  rw [o.name, o.attr, writeAttrs_eq as o.attrNames]
  rfl

theorem Ordinary.stop {h : Head} {n : Bytes} {as : List (Bytes × Bytes)} (o : Ordinary h n as) :
    [60#8, 47#8] ++ writtenEnd h ++ [62#8] = XmlText.stop n := by
  rw [writtenEnd, o.endName, if_pos rfl, o.name]
  rfl

/-- `k` is the depth of the encoder in an element at the depth `n`. -/
def AtDepth (d : Doc) (k : Int) (n : Nat) : Prop := (d.pre = [] ∧ d.indent = []) ∨ k = n

theorem writeIndent_at {d : Doc} {delta k : Int} {n m : Nat} (h : AtDepth d k n)
    (hd : (if delta < 0 then (n : Int) - 1 else if 0 < delta then (n : Int) + 1 else n) = m) :
    ∃ k', writeIndent d delta false k = (XmlText.beginLine d.pre d.indent m, k') ∧ AtDepth d k' m := by
  unfold writeIndent XmlText.beginLine
  by_cases hn : d.pre = [] ∧ d.indent = []
  · rw [if_pos hn, if_pos hn]
    exact ⟨k, rfl, .inl hn⟩
  · rw [if_neg hn, if_neg hn]
    rcases h with h | rfl
    · exact absurd h hn
    · simp only [hd, Bool.false_eq_true, if_false, Int.toNat_natCast]
      exact ⟨_, rfl, .inr rfl⟩

/-- A tag that is written, with what is within. -/
theorem writeTag_ordinary (d : Doc) (ni : Bool) (k : Int) {h : Head} {n : Bytes} {as : List (Bytes × Bytes)} (o : Ordinary h n as)
    (hasTags : Bool) (kids : Int → Bytes × Int) : writeTag d false ni k h hasTags kids =
      (XmlText.start n as ++ writeCData h.cdata ++ (if !ni && !h.noIndent && hasTags then writeIndent d 1 false k else ([], k)).1 ++
        XmlText.escaped h.text ++
        (kids (if !ni && !h.noIndent && hasTags then writeIndent d 1 false k else ([], k)).2).1 ++ XmlText.stop n,
      (kids (if !ni && !h.noIndent && hasTags then writeIndent d 1 false k else ([], k)).2).2, true) := by
  have hn : checkName .tag h.startName = true := by rw [o.name]; exact o.tagName
  unfold writeTag
  rw [if_neg (by rw [o.noComment]; decide), if_neg (by rw [hn]; decide)]
  simp only
  rw [if_neg (by rw [o.nonempty]; decide)]
  simp only [Bool.false_eq_true, if_false]
  rw [o.start, o.stop, escape_escaped]

mutual
theorem write_shown (d : Doc) : ∀ (e : XmlText.Element) {t : Tag} {k : Int} {n : Nat}, Shown t e → AtDepth d k n →
    ∃ k', writeSub d false k t = (XmlText.element (XmlText.beginLine d.pre d.indent) n e, k', true) ∧ AtDepth d k' n
  | .text nm as s, ⟨h, ts⟩, k, n, ⟨o, hc, ht, hs⟩, hk => by
    simp only [Tag.head_mk, Tag.tags_mk] at o hc ht hs
    subst hs
    refine ⟨k, ?_, hk⟩
    rw [writeSub, writeTag_ordinary d false k o, hc, ht]
    simp only [List.isEmpty_nil, Bool.not_true, Bool.and_false, Bool.false_eq_true, if_false, writeTags, writeCData, List.append_nil,
      XmlText.element]
  | .cdata nm as s, ⟨h, ts⟩, k, n, ⟨o, hc, ht, hs⟩, hk => by
    simp only [Tag.head_mk, Tag.tags_mk] at o hc ht hs
    subst hs
    refine ⟨k, ?_, hk⟩
    have he : XmlText.escaped [] = [] := rfl
    rw [writeSub, writeTag_ordinary d false k o, hc, ht]
    simp only [List.isEmpty_nil, Bool.not_true, Bool.and_false, Bool.false_eq_true, if_false, writeTags, writeCData, List.append_nil,
      XmlText.element, he, List.append_assoc]
    rfl
  | .inner nm as kid s, ⟨h, ts⟩, k, n, ⟨o, hc, ht, hi, u, hs, o', hc', ht', hs'⟩, hk => by
    obtain ⟨h', ts'⟩ := u
    simp only [Tag.head_mk, Tag.tags_mk] at o hc ht hs hi o' hc' ht' hs'
    subst hs; subst hs'
    refine ⟨k, ?_, hk⟩
    have he : XmlText.escaped [] = [] := rfl
    rw [writeSub, writeTag_ordinary d false k o, hc, ht, hi]
    simp only [Bool.not_true, Bool.and_false, Bool.false_and, Bool.false_eq_true, if_false, writeTags, Bool.or_true]
    rw [writeSub, writeTag_ordinary d true k o', hc', ht']
    simp only [List.isEmpty_nil, Bool.not_true, Bool.and_false, Bool.false_and, Bool.false_eq_true, if_false, writeTags, writeCData,
      List.append_nil, XmlText.element, he, List.append_assoc, writeAfter]
  | .block nm as es, ⟨h, ts⟩, k, n, ⟨o, hc, ht, hi, hs⟩, hk => by
    simp only [Tag.head_mk, Tag.tags_mk] at o hc ht hs hi
    have he : XmlText.escaped [] = [] := rfl
    rw [writeSub, writeTag_ordinary d false k o, hc, ht, hi]
    simp only [Bool.not_false, Bool.true_and, Bool.or_false]
    cases ts with
    | nil =>
      cases es with
      | cons e es => exact hs.elim
      | nil =>
        refine ⟨k, ?_, hk⟩
        simp only [List.isEmpty_nil, Bool.not_true, Bool.false_eq_true, if_false, if_true, writeTags, writeCData, List.append_nil,
          XmlText.element, he, XmlText.lines]
    | cons t ts =>
      obtain ⟨k1, h1, a1⟩ := writeIndent_at (delta := 1) (m := n + 1) hk (by simp)
      obtain ⟨k2, b, h2, a2, e2⟩ := write_lines d es (ts := t :: ts) (by simp) hs a1
      simp only [List.isEmpty_cons, Bool.not_false, if_true, h1, h2]
      refine ⟨k2, ?_, a2⟩
      have hes : es.isEmpty = false := by rw [← hs.isEmpty]; rfl
      simp only [writeCData, List.append_nil, XmlText.element, he, hes, Bool.false_eq_true, if_false, ← e2, List.append_assoc]
theorem write_lines (d : Doc) : ∀ (es : List XmlText.Element) {ts : List Tag} {k : Int} {n : Nat}, ts ≠ [] → ShownAll ts es →
    AtDepth d k (n + 1) → ∃ k' b, writeTags d false false k ts = (b, k') ∧ AtDepth d k' n ∧
      XmlText.beginLine d.pre d.indent (n + 1) ++ b = XmlText.lines (XmlText.beginLine d.pre d.indent) (n + 1) es ++
        XmlText.beginLine d.pre d.indent n
  | [], [], k, n, hne, _, _ => absurd rfl hne
  | [], _ :: _, k, n, hne, h, _ => h.elim
  | _ :: _, [], k, n, hne, _, _ => absurd rfl hne
  | e :: es, t :: ts, k, n, _, hs, hk => by
    obtain ⟨k1, h1, a1⟩ := write_shown d e hs.1 hk
    rw [writeTags, h1]
    cases ts with
    | nil =>
      cases es with
      | cons e es => exact hs.2.elim
      | nil =>
        obtain ⟨k2, h2, a2⟩ := writeIndent_at (delta := -1) (m := n) a1 (by simp)
        simp only [List.isEmpty_nil, writeAfter, Bool.not_false, Bool.and_true, if_true, Bool.false_eq_true, if_false, h2, writeTags]
        exact ⟨k2, _, rfl, a2, by simp only [XmlText.lines, List.append_nil, List.append_assoc]⟩
    | cons u us =>
      obtain ⟨k2, h2, a2⟩ := writeIndent_at (delta := 0) (m := n + 1) a1 (by simp)
      obtain ⟨k3, b, h3, a3, e3⟩ := write_lines d es (ts := u :: us) (by simp) hs.2 a2
      simp only [List.isEmpty_cons, writeAfter, Bool.not_false, Bool.and_true, if_true, Bool.false_eq_true, if_false, h2, h3]
      exact ⟨k3, _, rfl, a3, by simp only [XmlText.lines, List.append_assoc, e3]⟩
end

/-- Elements without a root element around them. -/
theorem write_bare (d : Doc) : ∀ (es : List XmlText.Element) {ts : List Tag} {k : Int}, ShownAll ts es → AtDepth d k 0 →
    (writeTags d true false k ts).1 = (XmlText.beginLine d.pre d.indent 0).intercalate
      (es.map (XmlText.element (XmlText.beginLine d.pre d.indent) 0))
  | [], [], k, _, _ => rfl
  | [], _ :: _, k, h, _ => h.elim
  | _ :: _, [], k, h, _ => h.elim
  | e :: es, t :: ts, k, hs, hk => by
    obtain ⟨k1, h1, a1⟩ := write_shown d e hs.1 hk
    rw [writeTags, h1]
    cases ts with
    | nil =>
      cases es with
      | cons e es => exact hs.2.elim
      | nil =>
        have h2 : (writeIndent d 0 true k1).1 = [] := by unfold writeIndent; split <;> rfl
        simp only [List.isEmpty_nil, writeAfter, Bool.not_false, Bool.and_true, if_true, h2, writeTags, List.append_nil, List.map_cons,
          List.map_nil, List.intercalate, List.intersperse, List.flatten_cons, List.flatten_nil]
    | cons u us =>
      cases es with
      | nil => exact hs.2.elim
      | cons f fs =>
        obtain ⟨k2, h2, a2⟩ := writeIndent_at (delta := 0) (m := 0) a1 (by simp)
        have h3 := write_bare d (f :: fs) (ts := u :: us) hs.2 a2
        simp only [List.isEmpty_cons, writeAfter, Bool.not_false, Bool.and_true, if_true, Bool.false_eq_true, if_false, h2, h3]
        simp only [List.map_cons, List.intercalate, List.intersperse, List.flatten_cons, List.append_assoc]

/-- The whole document. -/
theorem write_document {pre indent suffix : Bytes} {excludeRoot : Bool} {h : Head} {ts : List Tag} {n : Bytes}
    {as : List (Bytes × Bytes)} {es : List XmlText.Element} (hs : Shown ⟨h, ts⟩ (.block n as es)) :
    writeTo ⟨pre, indent, suffix, excludeRoot, some ⟨h, ts⟩⟩ = XmlText.document pre indent suffix excludeRoot n as es := by
  obtain ⟨o, hc, ht, hi, ha⟩ := id hs
  simp only [Tag.head_mk, Tag.tags_mk] at o hc ht hi ha
  unfold writeTo XmlText.document
  cases excludeRoot with
  | true =>
    simp only [if_true]
    rw [← write_bare ⟨pre, indent, suffix, true, some ⟨h, ts⟩⟩ es (k := 0) ha (.inr rfl)]
    have he : escapeString true [] = [] := rfl
    have h2 : ∀ k, (writeIndent ⟨pre, indent, suffix, true, some ⟨h, ts⟩⟩ 0 true k) = ([], k) := by
      intro k; unfold writeIndent; split <;> rfl
    unfold writeTag
    rw [if_neg (by rw [o.noComment]; decide), if_neg (by simp)]
    simp only
    rw [if_neg (by rw [o.nonempty]; decide)]
    simp only [if_true, h2, hi, hc, ht, he, writeCData, List.append_nil, List.nil_append, Bool.or_self]
    split <;> rfl
  | false =>
    obtain ⟨k, hk, -⟩ := write_shown ⟨pre, indent, suffix, false, some ⟨h, ts⟩⟩ _ hs (k := 0) (n := 0) (.inr rfl)
    rw [writeSub] at hk
    simp only [hi, Bool.or_false, Bool.false_eq_true, if_false] at hk ⊢
    rw [hk]

/-! ## Values -/

theorem shown_text {n s : Bytes} {b : Bool} {as : List (Bytes × Bytes)} (hn : checkName .tag n = true)
    (ha : ∀ a ∈ as, checkName .attr a.1 = true) :
    Shown ⟨{ startName := n, attr := as, noIndent := b, text := s }, []⟩ (.text n as s) :=
  ⟨⟨rfl, rfl, rfl, rfl, rfl, hn, ha⟩, rfl, rfl, rfl⟩

theorem shown_cdata {n s : Bytes} {b : Bool} {as : List (Bytes × Bytes)} (hn : checkName .tag n = true)
    (ha : ∀ a ∈ as, checkName .attr a.1 = true) :
    Shown ⟨{ startName := n, attr := as, noIndent := b, cdata := some s }, []⟩ (.cdata n as s) :=
  ⟨⟨rfl, rfl, rfl, rfl, rfl, hn, ha⟩, rfl, rfl, rfl⟩

theorem shown_block {n : Bytes} {as : List (Bytes × Bytes)} {ts : List Tag} {es : List XmlText.Element} (hn : checkName .tag n = true)
    (ha : ∀ a ∈ as, checkName .attr a.1 = true) (h : ShownAll ts es) : Shown ⟨{ startName := n, attr := as }, ts⟩ (.block n as es) :=
  ⟨⟨rfl, rfl, rfl, rfl, rfl, hn, ha⟩, rfl, rfl, rfl, h⟩

theorem shown_content {n s : Bytes} {as : List (Bytes × Bytes)} (hn : checkName .tag n = true)
    (ha : ∀ a ∈ as, checkName .attr a.1 = true) : Shown ⟨{ startName := n, attr := as, noIndent := true },
      [if s = [] then leaf (str "null") [] else leaf (str "url") s]⟩ (XmlText.content n as s) := by
  refine ⟨⟨rfl, rfl, rfl, rfl, rfl, hn, ha⟩, rfl, rfl, rfl, _, rfl, ?_⟩
  by_cases hs : s = []
  · rw [if_pos hs, if_pos hs, hs]
    exact ⟨⟨rfl, rfl, rfl, rfl, rfl, by decide, nofun⟩, rfl, rfl, rfl⟩
  · rw [if_neg hs, if_neg hs]
    exact ⟨⟨rfl, rfl, rfl, rfl, rfl, by decide, nofun⟩, rfl, rfl, rfl⟩

theorem shown_parts (b : Bool) : ∀ {l : List (String × Bytes)} {ts : List Tag},
    ts = (l.map fun x => ⟨{ startName := str x.1, noIndent := b, text := x.2 }, []⟩) →
    (l.all fun x => checkName .tag (str x.1)) = true → ShownAll ts (XmlText.parts l)
  | [], _, rfl, _ => trivial
  | x :: l, _, rfl, h => by
    rw [List.all_cons, Bool.and_eq_true] at h
    exact ⟨shown_text h.1 nofun, shown_parts b rfl h.2⟩

local macro "nm" : term => `(by show checkName NameType.tag (str _) = true; decide)
local macro "pt" : term => `(by
  simp only [XmlText.xyz, XmlText.xy, List.all_append, List.all_cons, List.cons_append, List.nil_append, List.all_nil,
    Bool.and_true, Bool.and_eq_true]
  decide)

theorem name_attr (n : Bytes) : ∀ a ∈ [(str "name", n)], checkName .attr a.1 = true := by
  intro a ha
  rw [List.mem_singleton] at ha
  subst ha
  show checkName .attr (str "name") = true
  decide

theorem style_eq (st : Byte) : fontStyleString st = XmlText.style st := by
  have e0 : (st.toNat = 0) = (st = 0#8) := propext ⟨fun h => BitVec.eq_of_toNat_eq h, fun h => by rw [h]; rfl⟩
  have e1 : (st.toNat = 1) = (st = 1#8) := propext ⟨fun h => BitVec.eq_of_toNat_eq h, fun h => by rw [h]; rfl⟩
  unfold fontStyleString XmlText.style
  simp only [e0, e1]

theorem optional_eq (t : Ty) : getCanonTag t true = str (XmlText.optional t) := by cases t <;> decide

theorem optional_ok (t : Ty) : checkName .tag (str (XmlText.optional t)) = true := by cases t <;> decide

theorem numbersText_eq (F : FloatText) : ∀ ks : List NumberKeypoint, numbersText F ks =
    ks.flatMap fun k => [k.time, k.value, k.envelope].flatMap fun f => XmlText.real F 6 f ++ str " "
  | [] => rfl
  | k :: ks => by
    rw [numbersText, numbersText_eq F ks]
    simp only [seqFloat, encodeFloatPrec, fix_real, List.flatMap_cons, List.flatMap_nil, List.append_nil, List.append_assoc]
    rfl

theorem colorsText_eq (F : FloatText) : ∀ ks : List ColorKeypoint, colorsText F ks =
    ks.flatMap fun k => [k.time, k.value.r, k.value.g, k.value.b, k.envelope].flatMap fun f => XmlText.real F 6 f ++ str " "
  | [] => rfl
  | k :: ks => by
    rw [colorsText, colorsText_eq F ks]
    simp only [seqFloat, encodeFloatPrec, fix_real, List.flatMap_cons, List.flatMap_nil, List.append_nil, List.append_assoc]
    rfl

variable {ρ : Type}

/-- The tag of a value is written as its element. -/
theorem value_shown (F : FloatText) (hash : Bytes → Bytes) (R : ρ → Bytes) (n : Bytes) (v : Value ρ) :
    ∃ t, encodeValue F hash (refText R v) v = some t ∧ Shown (named n t) (XmlText.value F hash R [(str "name", n)] v) := by
  have hsplit : ∀ (h : Head) (s : Bytes), encodeContent h (b64Split s) = { h with text := XmlText.broken (b64Encode s) } := by
    intro h s
    rw [encodeContent_split, b64Split_eq, broken_split]
  have na := name_attr n
  cases v
  case optional ty o =>
    by_cases hv : ∃ p r, o = some (.cframe p r)
    · obtain ⟨p, r, rfl⟩ := hv
      refine ⟨_, rfl, ?_⟩
      simp only [optional_eq, cframeTags, encodeFloat, fix_real]
      exact shown_block (optional_ok ty) na ⟨shown_block nm nofun (shown_parts true rfl pt), trivial⟩
    · have e1 : XmlText.value F hash R [(str "name", n)] (.optional ty o) = .text (str (XmlText.optional ty)) [(str "name", n)] [] := by
        rcases o with _ | v
        · rfl
        · cases v <;> first | rfl | exact absurd ⟨_, _, rfl⟩ hv
      have e2 : ∃ b, encodeValue F hash (refText R (.optional ty o)) (.optional ty o) =
          some ⟨{ startName := str (XmlText.optional ty), noIndent := b }, []⟩ := by
        rw [← optional_eq]
        rcases o with _ | v
        · exact ⟨true, rfl⟩
        · refine ⟨false, ?_⟩
          cases v <;> first | rfl | exact absurd ⟨_, _, rfl⟩ hv
      obtain ⟨b, e2⟩ := e2
      rw [e1]
      exact ⟨_, e2, shown_text (optional_ok ty) na⟩
  case physicalProperties c d f e fw ew =>
    refine ⟨_, rfl, ?_⟩
    simp only [encodeFloat, fix_real, XmlText.value]
    cases c
    · exact shown_block nm na (shown_parts false (l := [("CustomPhysics", str "false")]) rfl pt)
    · exact shown_block nm na (shown_parts false (l := [("CustomPhysics", str "true"),
        ("Density", XmlText.real F 9 d), ("Friction", XmlText.real F 9 f), ("Elasticity", XmlText.real F 9 e),
        ("FrictionWeight", XmlText.real F 9 fw), ("ElasticityWeight", XmlText.real F 9 ew)]) rfl pt)
  case content s => exact ⟨_, rfl, shown_content nm na⟩
  case font fam w st c =>
    refine ⟨_, rfl, ?_⟩
    have hw : formatInt (w.toNat : Int) = XmlText.numeral w.toNat := by
      rw [formatInt_integer, XmlText.integer, if_neg (by omega), Int.natAbs_natCast]
    simp only [style_eq, hw, XmlText.value]
    refine shown_block nm na (ShownAll.append ⟨shown_content nm nofun, shown_text nm nofun,
      shown_text nm nofun, trivial⟩ ?_)
    by_cases hc : c = []
    · rw [if_pos hc, if_pos hc]; trivial
    · rw [if_neg hc, if_neg hc]; exact ⟨shown_content nm nofun, trivial⟩
  case binaryString s =>
    refine ⟨_, rfl, ?_⟩
    rw [hsplit]
    exact shown_text nm na
  case sharedString s =>
    refine ⟨_, rfl, ?_⟩
    rw [hsplit]
    exact shown_text nm na
  case protectedString s =>
    refine ⟨_, rfl, ?_⟩
    have e : str "]]>" = [93#8, 93#8, 62#8] := by decide
    simp only [XmlText.value, encodeContent, hasCDataEnd_iff, ← e]
    by_cases hc : str "]]>" <:+: s
    · rw [if_pos hc, if_pos hc]; exact shown_cdata nm na
    · rw [if_neg hc, if_neg hc]; exact shown_text nm na
  case reference o =>
    cases o with
    | none => exact ⟨_, rfl, shown_text nm na⟩
    | some q => exact ⟨_, rfl, shown_text nm na⟩
  case ray o d =>
    refine ⟨_, rfl, ?_⟩
    simp only [xyzTags, encodeFloat, fix_real]
    exact shown_block nm na ⟨shown_block nm nofun (shown_parts true rfl pt),
      shown_block nm nofun (shown_parts true rfl pt), trivial⟩
  case rect o d =>
    refine ⟨_, rfl, ?_⟩
    simp only [xyTags, encodeFloat, fix_real]
    exact shown_block nm na ⟨shown_block nm nofun (shown_parts true rfl pt),
      shown_block nm nofun (shown_parts true rfl pt), trivial⟩
  case numberSequence ks =>
    refine ⟨_, rfl, ?_⟩
    rw [numbersText_eq]
    exact shown_text nm na
  case colorSequence ks =>
    refine ⟨_, rfl, ?_⟩
    rw [colorsText_eq]
    exact shown_text nm na
  case numberRange a b =>
    refine ⟨_, rfl, ?_⟩
    have e : seqFloat F a ++ seqFloat F b = [a, b].flatMap fun f => XmlText.real F 6 f ++ str " " := by
      simp only [seqFloat, encodeFloatPrec, fix_real, List.flatMap_cons, List.flatMap_nil, List.append_nil]
      rfl
    rw [e]
    exact shown_text nm na
  case color3uint8 r g b =>
    refine ⟨_, rfl, ?_⟩
    simp only [formatUint_numeral]
    exact shown_text nm na
  case uniqueId r t i =>
    refine ⟨_, rfl, ?_⟩
    rw [uniqueId_hexadecimal]
    exact shown_text nm na
  all_goals
    refine ⟨_, rfl, ?_⟩
    try simp only [flags_eq]
    try simp only [xyzTags, xyTags, cframeTags, encodeFloat, encodeDouble, fix_real, formatUint_numeral, formatInt_integer]
    first
      | exact shown_text nm na
      | exact shown_block nm na (shown_parts true rfl pt)

/-! ## Files -/

theorem shownAll_of_forall₂ : ∀ {ts : List Tag} {es : List XmlText.Element}, List.Forall₂ Shown ts es → ShownAll ts es
  | _, _, .nil => trivial
  | _, _, .cons h hs => ⟨h, shownAll_of_forall₂ hs⟩

variable [DecidableEq ρ]

/-- The tags of instances are written as their elements. -/
theorem items_text {P : Params} {h h1 : Heap ρ} (hsame : SameBut h h1) {ps : List ρ} {l : Map ρ (Inst ρ)} (f : Forest h ps l) :
    ∀ {items : List Tag}, Items P (XmlText.reference h1) h ps items → (∀ x ∈ l, x.2.properties.Ok) →
    ∃ es, XmlText.Items P.F P.hash P.excludeReferent h1 ps es ∧ ShownAll items es := by
  induction f with
  | nil => intro items hI _; cases hI; exact ⟨[], .nil, trivial⟩
  | @cons p ps inst below more hp f1 f2 ih1 ih2 =>
    intro items hI hok
    cases hI with
    | @cons _ _ inst' kids items hp' hk hi =>
    rw [hp] at hp'; cases hp'
    obtain ⟨r, hr⟩ := hsame p inst hp
    have hRp : XmlText.reference h1 p = r := by rw [XmlText.reference, hr]; rfl
    obtain ⟨es1, k1, s1⟩ := ih1 hk (fun x hx => hok x (by simp [hx]))
    obtain ⟨es2, k2, s2⟩ := ih2 hi (fun x hx => hok x (by simp [hx]))
    have ne : (str "class" = str "referent") = False := by decide
    have hset : setAttrValue [(str "class", inst.className), (str "referent", XmlText.reference h1 p)] (str "referent") [] =
        [(str "class", inst.className)] := by
      simp [setAttrValue, List.findIdx?_cons, ne]
    have props : ∃ es, XmlText.Properties P.F P.hash h1 inst.properties es ∧
        ShownAll (propTags P (XmlText.reference h1) inst.properties) es := by
      have aux : ∀ ns : List Bytes, (∀ n ∈ ns, (inst.properties.get? n).isSome) → ∃ es,
          List.Forall₂ (fun n e => ∃ v, inst.properties.get? n = some v ∧
            e = XmlText.value P.F P.hash (XmlText.reference h1) [(str "name", n)] v) ns es ∧
          ShownAll (ns.filterMap (propTag P (XmlText.reference h1) inst.properties)) es := by
        intro ns
        induction ns with
        | nil => intro _; exact ⟨[], .nil, trivial⟩
        | cons n ns ih =>
          intro hm
          obtain ⟨v, hv⟩ := Option.isSome_iff_exists.1 (hm n (by simp))
          obtain ⟨t, he, hs⟩ := value_shown P.F P.hash (XmlText.reference h1) n v
          obtain ⟨es, h2, h3⟩ := ih fun m hm' => hm m (by simp [hm'])
          have hp : propTag P (XmlText.reference h1) inst.properties n = some (named n t) := by
            simp only [propTag, hv, Option.bind_some, he, Option.map_some]
          rw [List.filterMap_cons, hp]
          exact ⟨_ :: es, .cons ⟨v, hv, rfl⟩ h2, hs, h3⟩
      obtain ⟨es, h2, h3⟩ := aux (names inst.properties) fun n hn => (mem_names _ n).1 hn
      exact ⟨es, ⟨_, names_strict (hok (p, inst) (by simp)), mem_names _, h2⟩, h3⟩
    obtain ⟨es0, k0, s0⟩ := props
    refine ⟨_, .cons (inst := { inst with reference := r }) hr k0 k1 k2, ?_, s2⟩
    unfold itemTag
    simp only [hset, hRp]
    have c1 : checkName .attr (str "class") = true := by decide
    have c2 : checkName .attr (str "referent") = true := by decide
    have hkids := (⟨shown_block (as := []) (by decide) nofun s0, s1⟩ : ShownAll (node (str "Properties") _ :: kids)
      (.block (str "Properties") [] es0 :: es1))
    cases P.excludeReferent with
    | true => exact shown_block (n := str "Item") (by decide) (by intro a ha; rw [List.mem_singleton.1 ha]; exact c1) hkids
    | false =>
      refine shown_block (n := str "Item") (by decide) (fun a ha => ?_) hkids
      rcases List.mem_cons.1 ha with rfl | ha
      · exact c1
      · rw [List.mem_singleton.1 ha]; exact c2

/-- The text of the file of a tree. -/
theorem encode_text {P : Params} {L : Layout} {h : Heap ρ} {root : Root ρ} {l : Map ρ (Inst ρ)} (hforest : Forest h root.instances l)
    (hprops : ∀ x ∈ l, x.2.properties.Ok) (hgen : ∀ k, isEmptyReference (P.gen k) = false) (hmeta : root.metadata.Ok) {b : Bytes}
    {h1 : Heap ρ} (he : encode P L h root = .ok (b, h1)) :
    ∃ metas items shared, (if P.excludeMetadata then metas = [] else XmlText.Metadata root.metadata metas) ∧
      XmlText.Items P.F P.hash P.excludeReferent h1 root.instances items ∧ XmlText.Shared P.hash l shared ∧
      b = XmlText.document L.pre (if L.indent = [] ∧ L.noDefaultIndent = false then str "\t" else L.indent) L.suffix L.excludeRoot
        (str "roblox") XmlText.rootAttrs (metas ++ (if P.excludeExternal then [] else
          [.text (str "External") [] (str "null"), .text (str "External") [] (str "nil")]) ++ items ++ shared) := by
  unfold encode codecEncode at he
  cases hea : encodeAll (encodeInstance P (h.length + 1)) [] 0 root.instances ⟨⟨h, [], 0⟩, []⟩ with
  | panic => simp only [hea] at he; cases he
  | err e => simp only [hea] at he; cases he
  | ok res =>
    obtain ⟨items, st⟩ := res
    simp only [hea, Res.ok.injEq, Prod.mk.injEq] at he
    obtain ⟨rfl, rfl⟩ := he
    have E := encodeAll_step hgen hforest hprops _ _ _ _ _ _ (SameBut.refl h) hea
    have hR : Agrees (XmlText.reference st.refs.heap) st := by
      rintro p r ⟨-, -, a, ha, rfl⟩
      show ((st.refs.heap.get? p).map Inst.reference).getD [] = _
      rw [ha]; rfl
    obtain ⟨es, k1, s1⟩ := items_text E.step.heap hforest (E.items _ hR) hprops
    have hok : st.shared.Ok := E.step.ok (by unfold Map.Ok; simp)
    have metas : ∃ ms, (if P.excludeMetadata then ms = [] else XmlText.Metadata root.metadata ms) ∧
        ShownAll (if P.excludeMetadata then [] else metaTags P root.metadata) ms := by
      cases P.excludeMetadata with
      | true => exact ⟨[], rfl, trivial⟩
      | false =>
        simp only [Bool.false_eq_true, if_false]
        refine ⟨_, ⟨P.srt.run (fun a b => bytesLt a.1 b.1) (P.it.run [0] root.metadata), (P.srt.perm _ _).trans (P.it.perm _ _),
          strict_of_sorted Prod.fst P.srt (((P.it.perm [0] root.metadata).map Prod.fst).nodup_iff.2 hmeta), rfl⟩, ?_⟩
        rw [metaTags]
        generalize P.srt.run (fun a b => bytesLt a.1 b.1) (P.it.run [0] root.metadata) = xs
        induction xs with
        | nil => trivial
        | cons x xs ih => exact ⟨shown_text (n := str "Meta") (by decide) (name_attr x.1), ih⟩
    have shareds : ∃ ss, XmlText.Shared P.hash l ss ∧ ShownAll (sharedTags P st.shared) ss := by
      have hperm : (P.srt.run bytesLt (P.it.run [2] st.shared.keys)).Perm st.shared.keys := (P.srt.perm _ _).trans (P.it.perm _ _)
      have hkeys : ∀ k ∈ P.srt.run bytesLt (P.it.run [2] st.shared.keys), (st.shared.get? k).isSome := fun k hk =>
        Map.get?_isSome.2 (hperm.mem_iff.1 hk)
      refine ⟨_, ⟨(P.srt.run bytesLt (P.it.run [2] st.shared.keys)).map fun k => (k, (st.shared.get? k).getD []), ?_, ?_, ?_, rfl⟩, ?_⟩
      · rw [List.pairwise_map]
        exact strict_of_sorted id P.srt (by rw [List.map_id]; exact (P.it.perm [2] st.shared.keys).nodup_iff.2 hok)
      · intro x hx
        rw [List.mem_map] at hx
        obtain ⟨k, hk, rfl⟩ := hx
        obtain ⟨s, hs⟩ := Option.isSome_iff_exists.1 (hkeys k hk)
        rcases E.sharedOnly k s hs with h | ⟨h, hu⟩
        · cases h
        · simp only [hs, Option.getD_some]
          exact ⟨hu, h⟩
      · intro s hs
        refine ⟨(P.hash s, (st.shared.get? (P.hash s)).getD []), List.mem_map.2 ⟨P.hash s, ?_, rfl⟩, rfl⟩
        exact hperm.mem_iff.2 (Map.get?_isSome.1 (E.sharedAll s hs))
      · have hlen : (P.srt.run bytesLt (P.it.run [2] st.shared.keys)).length = st.shared.length := by
          rw [hperm.length_eq]; simp [Map.keys]
        rw [sharedTags]
        by_cases hsh : st.shared = []
        · rw [if_pos hsh, List.length_eq_zero_iff.1 (hlen.trans (by rw [hsh]; rfl))]
          exact trivial
        · rw [if_neg hsh]
          have hne : (P.srt.run bytesLt (P.it.run [2] st.shared.keys)) ≠ [] := by
            intro e; rw [e] at hlen; exact hsh (List.length_eq_zero_iff.1 hlen.symm)
          generalize P.srt.run bytesLt (P.it.run [2] st.shared.keys) = ks at hne
          have : (ks.map fun k => (k, (st.shared.get? k).getD [])).isEmpty = false := by
            cases ks with
            | nil => exact absurd rfl hne
            | cons _ _ => rfl
          rw [this, if_neg Bool.false_ne_true]
          refine ⟨shown_block (n := str "SharedStrings") (by decide) nofun ?_, trivial⟩
          clear this hne
          induction ks with
          | nil => trivial
          | cons k ks ih =>
            refine ⟨?_, ih⟩
            simp only [b64Wrap_eq, wrapped_wrap]
            exact shown_text (n := str "SharedString") (by decide) (by
              intro a ha
              rw [List.mem_singleton] at ha
              subst ha
              show checkName .attr (str "md5") = true
              decide)
    obtain ⟨ms, m1, m2⟩ := metas
    obtain ⟨ss, n1, n2⟩ := shareds
    refine ⟨ms, es, ss, m1, k1, n1, ?_⟩
    have hind : (if (decide (L.indent = []) && !L.noDefaultIndent) = true then str "\t" else L.indent) =
        if L.indent = [] ∧ L.noDefaultIndent = false then str "\t" else L.indent := by
      simp only [Bool.and_eq_true, decide_eq_true_eq, Bool.not_eq_true']
    rw [hind]
    refine write_document ?_
    have hx : ShownAll (if P.excludeExternal then [] else externalTags) (if P.excludeExternal then [] else
          [.text (str "External") [] (str "null"), .text (str "External") [] (str "nil")]) := by
      cases P.excludeExternal with
      | true => trivial
      | false => exact ⟨shown_text (n := str "External") (by decide) nofun, shown_text (n := str "External") (by decide) nofun, trivial⟩
    have ha : ∀ a ∈ rootHead.attr, checkName .attr a.1 = true := by decide
    exact ⟨⟨rfl, rfl, rfl, rfl, rfl, by decide, ha⟩, rfl, rfl, rfl, ((m2.append hx).append s1).append n2⟩

end Rbxlx
