import Verif.Rbxl.DumpLemmas
import Verif.Spec.ErrorText
/-!
# C89: the messages and causes of errors
-/
namespace Props
open Go Rbxl Spec

variable (isPrint : Nat → Bool)

/-- What stands before the message of the cause. -/
def contextText : Context → Bytes
  | .value t => str "type " ++ (GoError.typeName t ++ (str " (0x" ++ (GoError.hexByte t ++ str "): ")))
  | .xml => str "decoding XML: "
  | .codec => str "codec error: "
  | .data none => str "data error: "
  | .data (some n) => str "data error at " ++ (formatUint n ++ str ": ")
  | .chunk none s => quote isPrint s ++ str " chunk: "
  | .chunk (some i) s => str "#" ++ (formatUint i ++ (str " " ++ (quote isPrint s ++ str " chunk: ")))
  | .index i => str "#" ++ (formatInt i ++ str ": ")

theorem formatInt_nonneg {n : Int} (h : ¬ n < 0) : formatInt n = formatUint n.toNat := by
  unfold formatInt; rw [if_neg h, show n.natAbs = n.toNat by omega]

theorem text_wraps {e c : GoError} {w : Context} {m : Bytes} (h : Wraps e w c) (hm : c.text isPrint = .ok m) :
    e.text isPrint = .ok (contextText isPrint w ++ m) := by
  cases h with
  | value t => simp [GoError.text, hm, contextText]
  | xml => simp [GoError.text, hm, contextText]
  | codec => simp [GoError.text, hm, contextText]
  | data n =>
    simp only [GoError.text, hm, Res.ok_bind, Res.pure_eq, known, GoError.place]
    split
    · simp only [contextText]; rw [show str "data error: " = str "data error" ++ str ": " by decide +kernel]; simp
    · rename_i h
      simp only [contextText, formatInt_nonneg h]
      rw [show str "data error at " = str "data error" ++ str " at " by decide +kernel]; simp
  | chunk i s =>
    simp only [GoError.text, hm, Res.ok_bind, Res.pure_eq, known, GoError.number]
    split
    · simp [contextText]
    · rename_i h
      simp [contextText, formatInt_nonneg h]
  | index i => simp [GoError.text, hm, contextText, GoError.verb]

/-- C89: the message of an error that wraps another one is the context it adds, which is the same whatever the cause, followed by
the message of the cause, unchanged. -/
theorem C89_message (w : Context) : ∃ p, ∀ e c m, Wraps e w c → c.text isPrint = .ok m → e.text isPrint = .ok (p ++ m) :=
  ⟨contextText isPrint w, fun _ _ _ h hm => text_wraps isPrint h hm⟩

theorem upperHex_inj {a b : Nat} (ha : a < 16) (hb : b < 16) (h : upperHex a = upperHex b) : a = b := by
  have : ∀ a < 16, ∀ b < 16, upperHex a = upperHex b → a = b := by decide
  exact this a ha b hb h

theorem hexByte_inj : ∀ {a b : Byte}, GoError.hexByte a = GoError.hexByte b → a = b := by
  intro a b h
  unfold GoError.hexByte at h
  have ha := a.isLt; have hb := b.isLt
  apply BitVec.eq_of_toNat_eq
  split at h <;> split at h <;> simp only [List.cons.injEq, and_true, reduceCtorEq, and_false] at h
  · exact upperHex_inj (by omega) (by omega) h
  · have h1 := upperHex_inj (by omega) (by omega) h.1
    have h2 := upperHex_inj (by omega) (by omega) h.2
    omega

theorem hexByte_word (a : Byte) : ∀ c ∈ GoError.hexByte a, ¬ Stop c := by
  have key : ∀ n < 16, ¬ Stop (upperHex n) := by decide
  have := a.isLt
  unfold GoError.hexByte
  split <;> simp only [List.mem_cons, List.not_mem_nil, or_false] <;> rintro c (rfl | rfl) <;> exact key _ (by omega)

theorem split_at {c : Byte} : ∀ {t u r s : Bytes}, c ∉ t → c ∉ u → t ++ c :: r = u ++ c :: s → t = u ∧ r = s
  | [], [], _, _, _, _, he => ⟨rfl, by simpa using he⟩
  | [], d :: u, r, s, _, hu, he => by
    simp only [List.nil_append, List.cons_append, List.cons.injEq] at he
    exact absurd (by simp [he.1]) hu
  | d :: t, [], r, s, ht, _, he => by
    simp only [List.nil_append, List.cons_append, List.cons.injEq] at he
    exact absurd (by simp [he.1]) ht
  | a :: t, b :: u, r, s, ht, hu, he => by
    simp only [List.cons_append, List.cons.injEq] at he
    have ⟨h1, h2⟩ := split_at (t := t) (u := u) (fun h => ht (by simp [h])) (fun h => hu (by simp [h])) he.2
    exact ⟨by rw [he.1, h1], h2⟩

theorem typeName_word (t : Byte) : 32#8 ∉ GoError.typeName t := by
  unfold GoError.typeName
  split
  · rename_i t _
    cases t <;> decide +kernel
  · decide +kernel

theorem blank_stop (l : Bytes) : Ends (32#8 :: l) := ⟨_, _, rfl, by decide⟩
theorem colon_stop (l : Bytes) : Ends (58#8 :: l) := ⟨_, _, rfl, by decide⟩

theorem str_append (a b : String) : str (a ++ b) = str a ++ str b := by simp [str]

theorem uint_word (n : Nat) : ∀ c ∈ formatUint n, ¬ Stop c := fun c hc => not_stop (.inr (formatUint_digits n c hc))
theorem int_word (n : Int) : ∀ c ∈ formatInt n, ¬ Stop c := fun c hc => not_stop (formatInt_bytes n c hc)
theorem formatUint_inj' {m n : Nat} (h : formatUint m = formatUint n) : m = n := by
  have := congrArg natOf h
  rwa [natOf_formatUint, natOf_formatUint] at this

theorem contextText_unique {v w : Context} {m k : Bytes} (h : contextText isPrint v ++ m = contextText isPrint w ++ k) :
    v = w ∧ m = k := by
  have e1 : str " (0x" = 32#8 :: str "(0x" := by decide +kernel
  have e2 : str "): " = 41#8 :: str ": " := by decide +kernel
  have e3 : str ": " = 58#8 :: str " " := by decide +kernel
  have e4 : str "#" = [35#8] := by decide +kernel
  have e5 : str " " = [32#8] := by decide +kernel
  have e6 : str "type " = 116#8 :: str "ype " := by decide +kernel
  have e7 : str "decoding XML: " = 100#8 :: 101#8 :: str "coding XML: " := by decide +kernel
  have e8 : str "codec error: " = 99#8 :: str "odec error: " := by decide +kernel
  have e9 : str "data error: " = 100#8 :: 97#8 :: (str "ta error" ++ 58#8 :: str " ") := by decide +kernel
  have e10 : str "data error at " = 100#8 :: 97#8 :: (str "ta error" ++ 32#8 :: str "at ") := by decide +kernel
  have eq : ∀ s, quote isPrint s = 34#8 :: (quoteLoop isPrint s.length s ++ [34#8]) := fun _ => rfl
  have digit : ∀ n r l, formatUint n ++ r ≠ 34#8 :: l := by
    intro n r l hh
    cases hf : formatUint n with
    | nil => exact formatUint_ne_nil _ hf
    | cons c t =>
      have := formatUint_digits n c (by rw [hf]; simp)
      rw [hf] at hh
      simp only [List.cons_append, List.cons.injEq] at hh
      rw [hh.1] at this
      simp at this
  rcases v with t | _ | _ | (_ | a) | ⟨_ | a, s⟩ | i <;> rcases w with t' | _ | _ | (_ | b) | ⟨_ | b, s'⟩ | j <;>
    simp only [contextText, List.append_assoc, e6, e7, e8, e9, e10, e4, eq, List.cons_append, List.cons.injEq, BitVec.reduceEq, false_and,
      and_false, List.nil_append, true_and] at h
  case value.value =>
    have h := List.append_cancel_left h
    simp only [e1, List.cons_append] at h
    obtain ⟨_, h⟩ := split_at (typeName_word t) (typeName_word t') h
    obtain ⟨h1, h⟩ := words (hexByte_word t) (hexByte_word t') ⟨_, _, by rw [e2]; rfl, by decide⟩ ⟨_, _, by rw [e2]; rfl, by decide⟩
      (List.append_cancel_left h)
    exact ⟨by rw [hexByte_inj h1], List.append_cancel_left h⟩
  case xml.xml => exact ⟨rfl, List.append_cancel_left h⟩
  case codec.codec => exact ⟨rfl, List.append_cancel_left h⟩
  case data.none.data.none =>
    have h := List.append_cancel_left h
    rw [List.cons.injEq] at h
    exact ⟨rfl, List.append_cancel_left h.2⟩
  case data.none.data.some =>
    have h := List.append_cancel_left h
    rw [List.cons.injEq] at h
    exact absurd h.1 (by decide)
  case data.some.data.none =>
    have h := List.append_cancel_left h
    rw [List.cons.injEq] at h
    exact absurd h.1 (by decide)
  case data.some.data.some =>
    have h := List.append_cancel_left h
    rw [List.cons.injEq] at h
    have h := List.append_cancel_left h.2
    simp only [e3, List.cons_append] at h
    obtain ⟨h1, h⟩ := words (uint_word a) (uint_word b) (colon_stop _) (colon_stop _) h
    refine ⟨by rw [formatUint_inj' h1], ?_⟩
    rw [List.cons.injEq] at h
    exact List.append_cancel_left h.2
  case chunk.none.chunk.none =>
    obtain ⟨h1, h⟩ := quote_unique isPrint (s := s) (t := s') (r := str " chunk: " ++ m) (q := str " chunk: " ++ k)
      (by rw [eq, eq]; simpa using h)
    exact ⟨by rw [h1], List.append_cancel_left h⟩
  case chunk.some.chunk.some =>
    simp only [e5, List.cons_append, List.nil_append] at h
    obtain ⟨h1, h⟩ := words (uint_word a) (uint_word b) (blank_stop _) (blank_stop _) h
    rw [List.cons.injEq] at h
    obtain ⟨h2, h⟩ := quote_unique isPrint (s := s) (t := s') (r := str " chunk: " ++ m) (q := str " chunk: " ++ k)
      (by rw [eq, eq]; simpa using h.2)
    exact ⟨by rw [formatUint_inj' h1, h2], List.append_cancel_left h⟩
  case chunk.some.index =>
    simp only [e5, e3, List.cons_append, List.nil_append] at h
    obtain ⟨h1, h⟩ := words (uint_word a) (int_word j) (blank_stop _) (colon_stop _) h
    rw [List.cons.injEq] at h
    exact absurd h.1 (by decide)
  case index.chunk.some =>
    simp only [e5, e3, List.cons_append, List.nil_append] at h
    obtain ⟨h1, h⟩ := words (int_word i) (uint_word b) (colon_stop _) (blank_stop _) h
    rw [List.cons.injEq] at h
    exact absurd h.1 (by decide)
  case index.index =>
    simp only [e3, List.cons_append] at h
    obtain ⟨h1, h⟩ := words (int_word i) (int_word j) (colon_stop _) (colon_stop _) h
    rw [List.cons.injEq] at h
    exact ⟨by rw [formatInt_inj h1], List.append_cancel_left h.2⟩

/-- C89: the message of an error that wraps another one tells what it adds - of which of the types it is, the offset, the position
and the printed signature of the chunk, the type of the value - and the message of the cause. -/
theorem C89_context {a b c d : GoError} {v w : Context} {m k t : Bytes} (ha : Wraps a v c) (hb : Wraps b w d)
    (hc : c.text isPrint = .ok m) (hd : d.text isPrint = .ok k) (hta : a.text isPrint = .ok t) (htb : b.text isPrint = .ok t) :
    v = w ∧ m = k := by
  rw [text_wraps isPrint ha hc] at hta
  rw [text_wraps isPrint hb hd] at htb
  exact contextText_unique isPrint (Res.ok.inj (hta.trans htb.symm))

theorem text_layers {e c : GoError} {ws : List Context} {m : Bytes} (h : Layers e ws c) (hm : c.text isPrint = .ok m) :
    e.text isPrint = .ok (ws.flatMap (contextText isPrint) ++ m) := by
  induction h with
  | nil => simpa using hm
  | cons hw _ ih => rw [text_wraps isPrint hw (ih hm)]; simp

/-- C89: so it is through any number of layers: of two errors with the same message, the layers of one are the outer layers of the
other, and if both have as many, the messages of what they wrap are the same. -/
theorem C89_layers {a b c d : GoError} {vs ws : List Context} {m k t : Bytes} (ha : Layers a vs c) (hb : Layers b ws d)
    (hc : c.text isPrint = .ok m) (hd : d.text isPrint = .ok k) (hta : a.text isPrint = .ok t) (htb : b.text isPrint = .ok t) :
    (vs <+: ws ∨ ws <+: vs) ∧ (vs.length = ws.length → vs = ws ∧ m = k) := by
  rw [text_layers isPrint ha hc] at hta
  rw [text_layers isPrint hb hd] at htb
  have h := Res.ok.inj (hta.trans htb.symm)
  clear ha hb hc hd hta htb
  induction vs generalizing ws with
  | nil =>
    refine ⟨.inl (List.nil_prefix), fun hl => ?_⟩
    cases ws with
    | nil => exact ⟨rfl, by simpa using h⟩
    | cons _ _ => simp at hl
  | cons v vs ih =>
    cases ws with
    | nil => exact ⟨.inr List.nil_prefix, fun hl => by simp at hl⟩
    | cons w ws =>
      simp only [List.flatMap_cons, List.append_assoc] at h
      obtain ⟨rfl, h'⟩ := contextText_unique isPrint h
      obtain ⟨h1, h2⟩ := ih h'
      refine ⟨?_, fun hl => ?_⟩
      · simpa [List.cons_prefix_cons] using h1
      · obtain ⟨rfl, h3⟩ := h2 (by simpa using hl)
        exact ⟨rfl, h3⟩

/-- An error may be unwrapped once for each layer, which gives what they wrap. -/
def unwrapN : Nat → GoError → Option GoError
  | 0, e => some e
  | n + 1, e => e.unwrap.bind (unwrapN n)

/-- C89: unwrapping an error gives its cause, exactly if it has one; so unwrapping all layers gives what they wrap. -/
theorem C89_unwrap (e c : GoError) : (e.unwrap = some c ↔ ∃ w, Wraps e w c) ∧
    ∀ ws, Layers e ws c → unwrapN ws.length e = some c := by
  have h1 : ∀ e c, e.unwrap = some c ↔ ∃ w, Wraps e w c := by
    intro e c
    constructor
    · intro h
      cases e <;> simp only [GoError.unwrap, reduceCtorEq] at h <;> subst h
      · exact ⟨_, .value _ _⟩
      · exact ⟨_, .xml _⟩
      · exact ⟨_, .codec _⟩
      · exact ⟨_, .data _ _⟩
      · exact ⟨_, .chunk _ _ _⟩
      · exact ⟨_, .index _ _⟩
    · rintro ⟨w, h⟩
      cases h <;> rfl
  refine ⟨h1 e c, fun ws h => ?_⟩
  induction h with
  | nil => rfl
  | @cons e w d ws c hw _ ih => simp [unwrapN, (h1 e d).2 ⟨w, hw⟩, ih]

mutual
theorem text_no_err : ∀ (e : GoError) (x : Err), e.text isPrint ≠ .err x := by
  intro e x
  match e with
  | .plain _ | .version _ | .unknownType _ | .reserve _ _ | .parentArray _ _ | .moreBytes _ | .elementType _ _ _ | .invalidType _
  | .buflen _ _ | .bounds _ _ _ | .syntax _ _ | .value _ none | .xml none | .codec none | .data _ none | .chunk _ _ none
  | .index _ none | .index _ (some _) | .errs [] | .errs [none] => simp [GoError.text]
  | .value _ (some e) | .xml (some e) | .codec (some e) | .data _ (some e) | .chunk _ _ (some e) =>
    have := text_no_err e
    cases h : e.text isPrint <;> simp_all [GoError.text]
  | .errs [some e] => simpa [GoError.text] using text_no_err e x
  | .errs (a :: b :: l) =>
    have := texts_no_err (a :: b :: l)
    cases h : GoError.texts isPrint (a :: b :: l) <;> simp_all [GoError.text]
theorem texts_no_err : ∀ (l : List (Option GoError)) (x : Err), GoError.texts isPrint l ≠ .err x := by
  intro l x
  match l with
  | [] | none :: _ => simp [GoError.texts]
  | some e :: l =>
    have h1 := text_no_err e
    have h2 := texts_no_err l
    cases h : e.text isPrint <;> cases h' : GoError.texts isPrint l <;> simp_all [GoError.texts]
end

mutual
theorem text_panic : ∀ e : GoError, e.text isPrint = .panic → Causeless e := by
  intro e h
  match e with
  | .plain _ | .version _ | .unknownType _ | .reserve _ _ | .parentArray _ _ | .moreBytes _ | .elementType _ _ _ | .invalidType _
  | .buflen _ _ | .bounds _ _ _ | .syntax _ _ | .xml none | .codec none | .data _ none
  | .index _ none | .index _ (some _) | .errs [] => simp [GoError.text] at h
  | .value t none => exact .value t
  | .chunk i s none => exact .chunk i s
  | .errs [none] => exact .nil (by simp)
  | .value t (some e) =>
    refine .cause (.value t e) nofun (text_panic e ?_)
    have := text_no_err isPrint e
    cases h' : e.text isPrint <;> simp_all [GoError.text]
  | .xml (some e) =>
    refine .cause (.xml e) nofun (text_panic e ?_)
    have := text_no_err isPrint e
    cases h' : e.text isPrint <;> simp_all [GoError.text]
  | .codec (some e) =>
    refine .cause (.codec e) nofun (text_panic e ?_)
    have := text_no_err isPrint e
    cases h' : e.text isPrint <;> simp_all [GoError.text]
  | .data n (some e) =>
    refine .cause (.data n e) nofun (text_panic e ?_)
    have := text_no_err isPrint e
    cases h' : e.text isPrint <;> simp_all [GoError.text]
  | .chunk i s (some e) =>
    refine .cause (.chunk i s e) nofun (text_panic e ?_)
    have := text_no_err isPrint e
    cases h' : e.text isPrint <;> simp_all [GoError.text]
  | .errs [some e] => exact .elem (l := [some e]) (by simp) (text_panic e (by simpa [GoError.text] using h))
  | .errs (a :: b :: l) =>
    have hn := texts_no_err isPrint (a :: b :: l)
    have hp : GoError.texts isPrint (a :: b :: l) = .panic := by
      cases h' : GoError.texts isPrint (a :: b :: l) <;> simp_all [GoError.text]
    rcases texts_panic (a :: b :: l) hp with hm | ⟨e, hm, he⟩
    · exact .nil hm
    · exact .elem hm he
theorem texts_panic : ∀ l : List (Option GoError), GoError.texts isPrint l = .panic →
    none ∈ l ∨ ∃ e, some e ∈ l ∧ Causeless e := by
  intro l h
  match l with
  | [] => simp [GoError.texts] at h
  | none :: _ => exact .inl (by simp)
  | some e :: l =>
    have h1 := text_no_err isPrint e
    have h2 := texts_no_err isPrint l
    cases he : e.text isPrint with
    | panic => exact .inr ⟨e, by simp, text_panic e he⟩
    | err x => exact absurd he (h1 x)
    | ok m =>
      have hp : GoError.texts isPrint l = .panic := by
        cases h' : GoError.texts isPrint l <;> simp_all [GoError.texts]
      rcases texts_panic l hp with hm | ⟨e', hm, he'⟩
      · exact .inl (by simp [hm])
      · exact .inr ⟨e', by simp [hm], he'⟩
end

theorem texts_of_panic : ∀ (l : List (Option GoError)), (none ∈ l ∨ ∃ e, some e ∈ l ∧ e.text isPrint = .panic) →
    GoError.texts isPrint l = .panic
  | [], h => by simp at h
  | none :: _, _ => by simp [GoError.texts]
  | some e :: l, h => by
    rw [GoError.texts]
    cases he : e.text isPrint with
    | panic => rfl
    | err x => exact absurd he (text_no_err isPrint e x)
    | ok m =>
      rw [texts_of_panic l]
      · rfl
      · rcases h with h | ⟨e', hm, he'⟩
        · exact .inl (by simpa using h)
        · refine .inr ⟨e', ?_, he'⟩
          rcases List.mem_cons.1 hm with hm | hm
          · cases hm; rw [he] at he'; cases he'
          · exact hm

theorem errs_of_panic (l : List (Option GoError)) (h : none ∈ l ∨ ∃ e, some e ∈ l ∧ e.text isPrint = .panic) :
    (GoError.errs l).text isPrint = .panic := by
  have := texts_of_panic isPrint l h
  match l with
  | [] => simp at h
  | [none] => simp [GoError.text]
  | [some e] =>
    rw [GoError.texts] at this
    rw [GoError.text]
    cases he : e.text isPrint <;> simp_all [GoError.texts]
  | a :: b :: l => simp [GoError.text, this]

/-- C89: asking an error for its message fails in exactly these cases: an error on a value or on a chunk has no cause, or a list has
a nil error, somewhere among the causes - but not below an error about an element of an array. -/
theorem C89_panics_iff (e : GoError) : e.text isPrint = .panic ↔ Causeless e := by
  refine ⟨text_panic isPrint e, fun h => ?_⟩
  induction h with
  | value t => simp [GoError.text]
  | chunk i s => simp [GoError.text]
  | nil h => exact errs_of_panic isPrint _ (.inl h)
  | elem h _ ih => exact errs_of_panic isPrint _ (.inr ⟨_, h, ih⟩)
  | cause hw hi _ ih =>
    cases hw <;> first
      | exact absurd rfl (hi _)
      | simp [GoError.text, ih]

theorem upperHex2_inj {a b : Byte} (h : upperHex2 a = upperHex2 b) : a = b := by
  unfold upperHex2 at h
  simp only [List.cons.injEq, and_true] at h
  have ha := a.isLt; have hb := b.isLt
  have h1 := upperHex_inj (by omega) (by omega) h.1
  have h2 := upperHex_inj (by omega) (by omega) h.2
  exact BitVec.eq_of_toNat_eq (by omega)

theorem hexBytes_cons (a b : Byte) (l : Bytes) : GoError.hexBytes (a :: b :: l) = upperHex2 a ++ (str " " ++ GoError.hexBytes (b :: l)) := by
  simp [GoError.hexBytes, List.intercalate, List.intersperse]

theorem hexBytes_inj : ∀ {b c : Bytes}, GoError.hexBytes b = GoError.hexBytes c → b = c
  | [], [], _ => rfl
  | [], [c], h => by simp [GoError.hexBytes, List.intercalate, upperHex2] at h
  | [], c :: d :: l, h => by rw [hexBytes_cons] at h; simp [GoError.hexBytes, List.intercalate, upperHex2] at h
  | [b], [], h => by simp [GoError.hexBytes, List.intercalate, upperHex2] at h
  | b :: d :: l, [], h => by rw [hexBytes_cons] at h; simp [GoError.hexBytes, List.intercalate, upperHex2] at h
  | [b], [c], h => by
    have : upperHex2 b = upperHex2 c := by simpa [GoError.hexBytes, List.intercalate] using h
    rw [upperHex2_inj this]
  | [b], c :: d :: l, h => by
    rw [hexBytes_cons] at h
    have := congrArg List.length h
    rw [show (str " " : Bytes) = [32#8] by decide +kernel] at this
    simp [GoError.hexBytes, List.intercalate, upperHex2] at this
  | b :: d :: l, [c], h => by
    rw [hexBytes_cons] at h
    have := congrArg List.length h
    rw [show (str " " : Bytes) = [32#8] by decide +kernel] at this
    simp [GoError.hexBytes, List.intercalate, upperHex2] at this
  | b :: d :: l, c :: e :: k, h => by
    rw [hexBytes_cons, hexBytes_cons] at h
    obtain ⟨h1, h2⟩ := List.append_inj h (by simp [upperHex2])
    rw [upperHex2_inj h1, hexBytes_inj (List.append_cancel_left h2)]

/-- The errors that wrap nothing and say where or what something is wrong; of an index out of bounds, that of the kind `kind`. -/
inductive Plain (kind : Bytes) : Nat → GoError → Prop
  | version (v) : Plain kind 0 (.version v)
  | unknownType (t) : Plain kind 1 (.unknownType t)
  | reserve (o b) : Plain kind 2 (.reserve o b)
  | parentArray (c p) : Plain kind 3 (.parentArray c p)
  | moreBytes (n) : Plain kind 4 (.moreBytes n)
  | invalidType (t) : Plain kind 5 (.invalidType t)
  | buflen (e g) : Plain kind 6 (.buflen e g)
  | bounds (i b) : Plain kind 7 (.bounds kind i b)
  | syntax (m l) : Plain kind 8 (.syntax m l)

/-- C89: the message of an error that wraps nothing, of one of the types of the format, tells every field of it: two such errors of
the same type and with the same message are the same. -/
theorem C89_fields {kind : Bytes} {n : Nat} {a b : GoError} (ha : Plain kind n a) (hb : Plain kind n b)
    (h : a.text isPrint = b.text isPrint) : a = b := by
  have e1 : str ": " = 58#8 :: str " " := by decide +kernel
  have e2 : str ")" = [41#8] := by decide +kernel
  have e3 : str ") does not match length of children array (" = 41#8 :: str " does not match length of children array (" := by
    decide +kernel
  have e4 : str " more bytes in array" = 32#8 :: str "more bytes in array" := by decide +kernel
  have e5 : str " bytes, got " = 32#8 :: str "bytes, got " := by decide +kernel
  have e6 : str " out of bounds [0," = 32#8 :: str "out of bounds [0," := by decide +kernel
  have e7 : str "unmatched tag on line " = 117#8 :: str "nmatched tag on line " := by decide +kernel
  have e8 : str "XML syntax error on line " = 88#8 :: str "ML syntax error on line " := by decide +kernel
  cases ha with
  | version v =>
    cases hb with | version w =>
    simp only [GoError.text, Res.ok.injEq] at h
    rw [BitVec.eq_of_toNat_eq (formatUint_inj' (List.append_cancel_left h))]
  | unknownType v =>
    cases hb with | unknownType w =>
    simp only [GoError.text, Res.ok.injEq] at h
    rw [hexByte_inj (List.append_cancel_left h)]
  | reserve o c =>
    cases hb with | reserve p d =>
    simp only [GoError.text, Res.ok.injEq, e1, List.cons_append] at h
    obtain ⟨h1, h2⟩ := words (int_word _) (int_word _) (colon_stop _) (colon_stop _) (List.append_cancel_left h)
    rw [List.cons.injEq] at h2
    rw [BitVec.eq_of_toInt_eq (formatInt_inj h1), hexBytes_inj (List.append_cancel_left h2.2)]
  | parentArray c p =>
    cases hb with | parentArray d q =>
    simp only [GoError.text, Res.ok.injEq, e3, e2, List.cons_append] at h
    obtain ⟨h1, h2⟩ := words (int_word _) (int_word _) ⟨_, _, rfl, by decide⟩ ⟨_, _, rfl, by decide⟩ (List.append_cancel_left h)
    rw [List.cons.injEq] at h2
    obtain ⟨h3, _⟩ := words (int_word _) (int_word _) ⟨_, _, rfl, by decide⟩ ⟨_, _, rfl, by decide⟩ (List.append_cancel_left h2.2)
    rw [BitVec.eq_of_toInt_eq (formatInt_inj h1), BitVec.eq_of_toInt_eq (formatInt_inj h3)]
  | moreBytes n =>
    cases hb with | moreBytes m =>
    simp only [GoError.text, Res.ok.injEq, e4] at h
    obtain ⟨h1, _⟩ := words (int_word _) (int_word _) (blank_stop _) (blank_stop _) (List.append_cancel_left h)
    rw [BitVec.eq_of_toInt_eq (formatInt_inj h1)]
  | invalidType v =>
    cases hb with | invalidType w =>
    simp only [GoError.text, Res.ok.injEq] at h
    obtain ⟨h1, _⟩ := List.append_inj (List.append_cancel_left h) (by simp [upperHex2])
    rw [upperHex2_inj h1]
  | buflen e g =>
    cases hb with | buflen e' g' =>
    simp only [GoError.text, Res.ok.injEq, e5, List.cons_append] at h
    obtain ⟨h1, h2⟩ := words (uint_word _) (uint_word _) (blank_stop _) (blank_stop _) (List.append_cancel_left h)
    rw [List.cons.injEq] at h2
    rw [BitVec.eq_of_toNat_eq (formatUint_inj' h1), BitVec.eq_of_toInt_eq (formatInt_inj (List.append_cancel_left h2.2))]
  | bounds i c =>
    cases hb with | bounds j d =>
    simp only [GoError.text, Res.ok.injEq, e6, List.cons_append] at h
    obtain ⟨h1, h2⟩ := words (int_word _) (int_word _) (blank_stop _) (blank_stop _)
      (List.append_cancel_left (List.append_cancel_left h))
    rw [List.cons.injEq] at h2
    have h3 := List.append_cancel_right (List.append_cancel_left h2.2)
    rw [BitVec.eq_of_toInt_eq (formatInt_inj h1), BitVec.eq_of_toNat_eq (formatUint_inj' h3)]
  | «syntax» m l =>
    cases hb with | «syntax» m' l' =>
    simp only [GoError.text, Res.ok.injEq] at h
    by_cases hm : m = [] <;> by_cases hm' : m' = []
    · rw [if_pos hm, if_pos hm'] at h
      rw [hm, hm', BitVec.eq_of_toInt_eq (formatInt_inj (List.append_cancel_left h))]
    · rw [if_pos hm, if_neg hm', e7, e8, List.cons_append, List.cons_append, List.cons.injEq] at h
      exact absurd h.1 (by decide)
    · rw [if_neg hm, if_pos hm', e7, e8, List.cons_append, List.cons_append, List.cons.injEq] at h
      exact absurd h.1 (by decide)
    · rw [if_neg hm, if_neg hm'] at h
      simp only [e1, List.cons_append] at h
      obtain ⟨h1, h2⟩ := words (int_word _) (int_word _) (colon_stop _) (colon_stop _) (List.append_cancel_left h)
      rw [List.cons.injEq] at h2
      rw [BitVec.eq_of_toInt_eq (formatInt_inj h1), List.append_cancel_left h2.2]

/-- C89: what an error does not tell: which of the negative offsets it has, and which bytes of the signature of a chunk are not
printed but replaced by a full stop. -/
theorem C89_limits :
    (∃ a b : GoError, a ≠ b ∧ a.text isPrint = b.text isPrint ∧ a.unwrap = b.unwrap ∧ a = .data (-1) (some (.plain (str "x"))) ∧
      b = .data (-2) (some (.plain (str "x")))) ∧
    (∃ a b : GoError, a ≠ b ∧ a.text isPrint = b.text isPrint ∧ a.unwrap = b.unwrap ∧
      a = .chunk 3 0x00424120 (some (.plain (str "x"))) ∧ b = .chunk 3 0x2E424120 (some (.plain (str "x")))) := by
  refine ⟨⟨.data (-1) (some (.plain (str "x"))), .data (-2) (some (.plain (str "x"))), ?_, ?_, rfl, rfl, rfl⟩,
    ⟨.chunk 3 0x00424120 (some (.plain (str "x"))), .chunk 3 0x2E424120 (some (.plain (str "x"))), ?_, ?_, rfl, rfl, rfl⟩⟩
  · intro h; injection h with h1 _; exact absurd h1 (by decide)
  · rw [text_wraps isPrint (.data _ _) (by simp [GoError.text]; rfl), text_wraps isPrint (.data _ _) (by simp [GoError.text]; rfl)]
    rfl
  · intro h; injection h with _ h1 _; exact absurd h1 (by decide)
  · rw [text_wraps isPrint (.chunk _ _ _) (by simp [GoError.text]; rfl), text_wraps isPrint (.chunk _ _ _) (by simp [GoError.text]; rfl)]
    rw [show sigString 0x00424120 = sigString 0x2E424120 by decide +kernel]

/-- A decoding error: bytes were expected in the first value of a property of the chunk at position 7. -/
def exError : GoError :=
  .data 120 (some (.codec (some (.chunk 7 0x504F5250 (some (.value 5 (some (.index 2 (some (.buflen 8 3)))))))))) 

/-- An instance of the theorems: its message, layers and cause. -/
example : exError.text (fun n => decide (32 ≤ n ∧ n < 127)) =
      .ok (str "data error at 120: codec error: #7 \"PROP\" chunk: type Double (0x5): #2: expected 8 bytes, got 3") ∧
    Layers exError [.data (some 120), .codec, .chunk (some 7) (str "PROP"), .value 5, .index 2] (.buflen 8 3) := by
  refine ⟨by decide +kernel, ?_⟩
  refine .cons (w := .data (known 120)) (.data _ _) (.cons (.codec _) ?_)
  refine .cons (w := .chunk (known 7) (sigString 0x504F5250)) (.chunk _ _ _) (.cons (.value _ _) ?_)
  exact .cons (w := .index (2 : BitVec 64).toInt) (.index _ _) (.nil _)

/-- An instance of C89_panics_iff, below a list, and of an error about an element, which does not panic. -/
example : Causeless (.errs [some (.plain (str "x")), some (.codec (some (.value 1 none)))]) ∧
    ¬ Causeless (.index 4 (some (.value 1 none))) := by
  refine ⟨.elem (by simp) (.cause (.codec _) nofun (.value 1)), fun h => ?_⟩
  rw [← C89_panics_iff (fun _ => true)] at h
  simp [GoError.text] at h

/-- Instances of C89_fields. -/
example : Plain (str "class index") 7 (.bounds (str "class index") 5 3) ∧ Plain [] 2 (.reserve 24 [0, 1, 0, 255]) := ⟨.bounds _ _, .reserve _ _⟩

end Props
