import Verif.Json.FormRead
import Verif.Props.Refs
/-!
# C51 and C52: the JSON form

`gen` stands for the generated references, `it` for the order of iteration over maps, `O` for the result of Go's
conversion of a float64 that is out of range of the integer type.
-/
namespace Props
open Go Rbxfile Spec Json

section
variable (rand : Nat → Bytes) (fuel : Nat) (O : Overflow) (it : Iter)

/-! ## C51 -/

/-- C51 (partial): a value that is not a reference, converted to an interface and back, is the same value, if the length of
a binary or shared string is a multiple of three, a 64 bit integer is exact as a double, and the type is not Optional,
UniqueId or Font. What fails for those is stated below. -/
theorem C51_values_partial {v : Value Nat} (hs : JsonSupported v) (hr : v.type ≠ .reference) (st : RefState Nat) :
    ∃ j w, valueTo (genOf rand) fuel v st = .ok (j, st) ∧
      valueFrom (ρ := Nat) O it v.type j = .ok (some w) ∧ JsonKept some v w :=
  value_back O it _ fuel some hs hr st

/-- C51: a reference becomes the text under which the instance is registered, and that text comes back as a string, as
documented. -/
theorem C51_reference {q : Option Nat} {st st' : RefState Nat} {j : JVal}
    (h : valueTo (genOf rand) fuel (.reference q) st = .ok (j, st')) :
    ∃ r, valueFrom (ρ := Nat) O it .reference j = .ok (some (.string r)) ∧ (q = none → r = []) ∧
      ∀ p, q = some p → st'.refs.at r = some p ∧ isEmptyReference r = false ∧
        ∃ a, st'.heap.get? p = some a ∧ a.reference = r := by
  simp only [valueTo] at h
  split at h
  · rename_i r st1 h1
    cases h
    obtain ⟨-, h2, h3⟩ := getRef_ext (genOf_nonempty rand) h1
    exact ⟨r, rfl, h2, fun p hp => ⟨(h3 p hp).2.1, (h3 p hp).1, (h3 p hp).2.2⟩⟩
  · cases h
  · cases h

/-- C51 fails for binary strings and shared strings: what does not fill a group of three bytes at the end is lost. -/
theorem C51_binary_fails (s : Bytes) (st : RefState Nat) :
    (∃ j, valueTo (genOf rand) fuel (.binaryString s) st = .ok (j, st) ∧
      valueFrom (ρ := Nat) O it .binaryString j = .ok (some (.binaryString (s.take (s.length / 3 * 3))))) ∧
    (∃ j, valueTo (genOf rand) fuel (.sharedString s) st = .ok (j, st) ∧
      valueFrom (ρ := Nat) O it .sharedString j = .ok (some (.sharedString (s.take (s.length / 3 * 3))))) ∧
    (s.length % 3 ≠ 0 → s.take (s.length / 3 * 3) ≠ s) := by
  refine ⟨⟨_, rfl, ?_⟩, ⟨_, rfl, ?_⟩, ?_⟩
  · show Res.ok (some (Value.binaryString ((b64Decode (openBase64 s)).getD _))) = _
    rw [openBase64_back]; rfl
  · show Res.ok (some (Value.sharedString ((b64Decode (openBase64 s)).getD _))) = _
    rw [openBase64_back]; rfl
  · intro h e
    have := congrArg List.length e
    rw [List.length_take] at this
    omega

/-- C51 fails for every optional value: the conversion back panics. -/
theorem C51_optional_fails {t : Ty} {o : Option (Value Nat)} {st st' : RefState Nat} {j : JVal}
    (h : valueTo (genOf rand) fuel (.optional t o) st = .ok (j, st')) :
    valueFrom (ρ := Nat) O it .optional j = .panic := by
  have key : ∀ j, valueFrom (ρ := Nat) O it .optional (.obj [(str "type", .type t), (str "value", j)]) = .panic := by
    intro j
    rw [valueFrom]
    rfl
  cases o with
  | none => cases h; exact key _
  | some v =>
    simp only [valueTo] at h
    split at h
    · cases h; exact key _
    · cases h
    · cases h

/-- C51 fails for unique ids and fonts: they are converted to null, and come back as no value. -/
theorem C51_uniqueId_font_fails (r : BitVec 64) (t i : BitVec 32) (fam : Bytes) (w : BitVec 16) (sty : BitVec 8)
    (cached : Bytes) (st : RefState Nat) :
    (∃ j, valueTo (genOf rand) fuel (.uniqueId r t i) st = .ok (j, st) ∧
      valueFrom (ρ := Nat) O it .uniqueId j = .ok none) ∧
    ∃ j, valueTo (genOf rand) fuel (.font fam w sty cached) st = .ok (j, st) ∧
      valueFrom (ρ := Nat) O it .font j = .ok none :=
  ⟨⟨_, rfl, rfl⟩, ⟨_, rfl, rfl⟩⟩

/-- C51 fails for 64 bit integers that are not exact as a double: `2^53 + 1` comes back as `2^53`. -/
theorem C51_int64_fails (st : RefState Nat) : ∃ j, valueTo (genOf rand) fuel (.int64 0x20000000000001#64) st = .ok (j, st) ∧
    valueFrom (ρ := Nat) O it .int64 j = .ok (some (.int64 0x20000000000000#64)) := by
  refine ⟨.num (intToF64 (0x20000000000001#64).toInt), rfl, ?_⟩
  have e : ∀ f, valueFrom (ρ := Nat) O it .int64 (.num f) = .ok (some (.int64 (f64ToInt O 64 f))) := fun _ => rfl
  have h1 : intToF64 (0x20000000000001#64).toInt = intToF64 (0x20000000000000#64).toInt := by decide +kernel
  have h2 := f64ToInt_back O (by decide) (0x20000000000000#64) (by decide) ⟨1, 53, by decide, by decide⟩
  rw [← h1] at h2
  rw [e, h2]

/-- The integer part of a number is exact as a double. -/
theorem trunc64_exact (f : F64) : ExactDouble (trunc64 f) := by
  have key : ∀ v : Nat, (∃ m k : Nat, v = m * 2 ^ k ∧ m < 2 ^ 53) → ∃ m k : Nat, v / 2 ^ 1074 = m * 2 ^ k ∧ m < 2 ^ 53 := by
    rintro v ⟨m, k, rfl, hm⟩
    by_cases hk : 1074 ≤ k
    · obtain ⟨d, rfl⟩ := Nat.exists_eq_add_of_le hk
      refine ⟨m, d, ?_, hm⟩
      rw [Nat.pow_add, Nat.mul_comm (2 ^ 1074), ← Nat.mul_assoc, Nat.mul_div_cancel _ (Nat.two_pow_pos _)]
    · obtain ⟨d, hd⟩ := Nat.exists_eq_add_of_le (Nat.le_of_not_le hk)
      refine ⟨m * 2 ^ k / 2 ^ 1074, 0, by rw [Nat.pow_zero, Nat.mul_one], ?_⟩
      rw [hd, Nat.pow_add, Nat.mul_comm (2 ^ k), Nat.mul_div_mul_right _ _ (Nat.two_pow_pos _)]
      exact Nat.lt_of_le_of_lt (Nat.div_le_self _ _) hm
  have hv : ∃ m k : Nat, fmt64.value (mag64 f) = m * 2 ^ k ∧ m < 2 ^ 53 := by
    have hlt : mag64 f % 2 ^ fmt64.mb < 2 ^ 52 := Nat.mod_lt _ (Nat.two_pow_pos _)
    unfold FloatFmt.value
    split
    · exact ⟨_, 0, by rw [Nat.pow_zero, Nat.mul_one], by omega⟩
    · refine ⟨_, _, rfl, ?_⟩
      have : (2 : Nat) ^ fmt64.mb = 2 ^ 52 := rfl
      omega
  obtain ⟨m, k, h1, h2⟩ := key _ hv
  refine ⟨m, k, ?_, h2⟩
  unfold trunc64
  simp only
  split
  · rw [Int.natAbs_neg, Int.natAbs_natCast]; exact h1
  · rw [Int.natAbs_natCast]; exact h1

/-- C51: exactly which values come back, apart from references: those of `C51_values_partial`; and 64 bit integers next to the largest,
which are rounded to a double that is too large, if the conversion of that number to an integer, of which the language does not say what
it yields, happens to yield them. -/
theorem C51_exact (v : Value Nat) (hr : v.type ≠ .reference) (st : RefState Nat) :
    (∃ j st' w, valueTo (genOf rand) fuel v st = .ok (j, st') ∧ valueFrom (ρ := Nat) O it v.type j = .ok (some w) ∧ JsonKept some v w) ↔
      JsonSupported v ∨ ∃ n : BitVec 64, v = .int64 n ∧
        ¬ (mag64 (intToF64 n.toInt) < fmt64.inf ∧ -(2 ^ 63) ≤ trunc64 (intToF64 n.toInt) ∧ trunc64 (intToF64 n.toInt) < 2 ^ 63) ∧ O.int 64 (intToF64 n.toInt) = n := by
  constructor
  · rintro ⟨j, st', w, h1, h2, h3⟩
    cases v with
    | binaryString s =>
      left
      obtain ⟨⟨j', e1, e2⟩, -, e3⟩ := C51_binary_fails (rand := rand) (fuel := fuel) (O := O) (it := it) s st
      rw [e1] at h1; cases h1
      rw [show Ty.binaryString = (Value.binaryString s : Value Nat).type from rfl, h2] at e2
      cases e2
      simp only [JsonKept, Value.binaryString.injEq] at h3
      exact Decidable.byContradiction (p := s.length % 3 = 0) fun hc => e3 hc h3
    | sharedString s =>
      left
      obtain ⟨-, ⟨j', e1, e2⟩, e3⟩ := C51_binary_fails (rand := rand) (fuel := fuel) (O := O) (it := it) s st
      rw [e1] at h1; cases h1
      rw [show Ty.sharedString = (Value.sharedString s : Value Nat).type from rfl, h2] at e2
      cases e2
      simp only [JsonKept, Value.sharedString.injEq] at h3
      exact Decidable.byContradiction (p := s.length % 3 = 0) fun hc => e3 hc h3
    | int64 n =>
      cases h1
      have e : valueFrom (ρ := Nat) O it .int64 (int n) = .ok (some (.int64 (f64ToInt O 64 (intToF64 n.toInt)))) := rfl
      rw [show (Value.int64 n : Value Nat).type = Ty.int64 from rfl, e] at h2
      cases h2
      simp only [JsonKept, Value.int64.injEq] at h3
      unfold f64ToInt at h3
      split at h3
      · next hc =>
        left
        show ExactDouble n.toInt
        have ht : (BitVec.ofInt 64 (trunc64 (intToF64 n.toInt))).toInt = trunc64 (intToF64 n.toInt) := by
          rw [BitVec.toInt_ofInt]
          exact Int.bmod_eq_of_le (by simpa using hc.2.1) (by simpa using hc.2.2)
        rw [← h3, ht]
        exact trunc64_exact _
      · next hc =>
        exact .inr ⟨n, rfl, fun hin => hc ⟨hin.1, by simpa using hin.2.1, by simpa using hin.2.2⟩, h3⟩
    | optional t o =>
      exact absurd (h2.symm.trans (C51_optional_fails (rand := rand) (fuel := fuel) O it h1)) nofun
    | uniqueId => cases h1; cases h2
    | font => cases h1; cases h2
    | _ => exact .inl trivial
  · rintro (h | ⟨n, rfl, h1, h2⟩)
    · obtain ⟨j, w, h1, h2, h3⟩ := C51_values_partial (rand := rand) (fuel := fuel) (O := O) (it := it) h hr st
      exact ⟨j, st, w, h1, h2, h3⟩
    · refine ⟨_, st, .int64 n, rfl, ?_, rfl⟩
      show Res.ok (some (Value.int64 (f64ToInt O 64 (intToF64 n.toInt)))) = _
      rw [f64ToInt, if_neg, h2]
      rintro ⟨a, b, c⟩
      exact h1 ⟨a, by simpa using b, by simpa using c⟩

end

example : JsonSupported (.binaryString [1#8, 2#8, 3#8] : Value Nat) ∧ JsonSupported (.float 0x3F800000 : Value Nat) ∧
    JsonSupported (.int64 (-3) : Value Nat) ∧
    JsonSupported (.numberSequence [⟨0, 0x3F800000, 0⟩, ⟨0x3F800000, 0, 0⟩] : Value Nat) ∧
    (.float 0x3F800000 : Value Nat).type ≠ .reference :=
  ⟨rfl, trivial, ⟨3, 0, by decide, by decide⟩, trivial, by decide⟩

/-! ## C52 -/

/-- The instances listed have no children: they are the roots. -/
theorem forest_flat {h : Heap Nat} {ps : List Nat} {l : Map Nat (Inst Nat)} (f : Forest h ps l)
    (hc : ∀ x ∈ l, x.2.children = []) : l.map Prod.fst = ps ∧ ∀ x ∈ l, h.get? x.1 = some x.2 := by
  induction f with
  | nil => exact ⟨rfl, nofun⟩
  | @cons p ps inst below rest hp f1 f2 ih1 ih2 =>
    have hb : below = [] := by
      have e : inst.children = [] := hc (p, inst) (by simp)
      rw [e] at f1
      cases f1
      rfl
    subst hb
    obtain ⟨h1, h2⟩ := ih2 fun x hx => hc x (by simp [hx])
    refine ⟨by simpa using h1, ?_⟩
    intro x hx
    rcases List.mem_cons.1 hx with rfl | hx
    · exact hp
    · exact h2 x (by simpa using hx)

/-- C52 (partial): a root whose instances have no children, converted to an interface and back: there is a one-to-one
correspondence `φ` of instances; the instances keep their order, class name, service flag and properties, and have the
reference the encoder gave to the original. References between instances follow `φ`; references to other instances become
nil. Values are those of `JsonSupported`. Metadata is lost. For instances with children see `C52_children_fails`. -/
theorem C52_flat_partial (rand : Nat → Bytes) (fuel : Nat) (O : Overflow) (it1 it2 : Iter) {h : Heap Nat} (pos : Nat)
    {root : Root Nat} {l : Map Nat (Inst Nat)} (ht : Trees h root.instances l) (hc : ∀ x ∈ l, x.2.children = [])
    (hok : ∀ x ∈ l, x.2.properties.Ok)
    (hs : ∀ x ∈ l, ∀ n v, x.2.properties.get? n = some v → JsonSupported v)
    {j : JVal} {h1 : Heap Nat} (he : rootTo (genOf rand) fuel it1 h pos root = .ok (j, h1)) :
    ∃ φ h2 root2, rootFrom O it2 j = .ok (some (h2, root2)) ∧ Corresp l φ h2 ∧
      root2.metadata = [] ∧ root2.instances.map some = root.instances.map φ ∧
      ∀ p inst, (p, inst) ∈ l → ∃ q i r, φ p = some q ∧ h2.get? q = some i ∧
        h1.get? p = some { inst with reference := r } ∧ i.reference = r ∧
        i.className = inst.className ∧ i.isService = inst.isService ∧ i.children = [] ∧
        ∀ n, match inst.properties.get? n with
          | none => i.properties.get? n = none
          | some v => ∃ w, i.properties.get? n = some w ∧ JsonKept φ v w := by
  obtain ⟨hf, hl⟩ := ht
  obtain ⟨hp, hg⟩ := forest_flat hf hc
  have hmem : ∀ p ∈ root.instances, ∃ inst, (p, inst) ∈ l := by
    intro p hpr
    rw [← hp] at hpr
    obtain ⟨x, hx, rfl⟩ := List.mem_map.1 hpr
    exact ⟨x.2, hx⟩
  have hof : ∀ p ∈ root.instances, ∀ inst, h.get? p = some inst → (p, inst) ∈ l := by
    intro p hpr inst hi
    obtain ⟨inst', hm⟩ := hmem p hpr
    have := hg _ hm
    rw [hi] at this; cases this; exact hm
  obtain ⟨h2, root2, e1, e2, e3, e4, e5⟩ := flat_back (O := O) (it2 := it2) (genOf_nonempty rand)
    (fun p hpr => by
      obtain ⟨inst, hm⟩ := hmem p hpr
      exact ⟨inst, hg _ hm, hc _ hm⟩)
    (by rw [← hp]; exact hl)
    (fun p hpr inst hi => hok _ (hof p hpr inst hi))
    (fun p hpr inst n v hi hv => hs _ (hof p hpr inst hi) n v hv) he
  refine ⟨numbered root.instances, h2, root2, e1, ⟨?_, ?_, ?_⟩, e2, e3, ?_⟩
  · intro p
    rw [hp]
    unfold numbered
    split <;> simp [*]
  · intro p p' q hq hq'
    unfold numbered at hq hq'
    split at hq
    · rename_i m1
      split at hq'
      · rename_i m2
        cases hq
        simp only [Option.some.injEq] at hq'
        have a : root.instances[root.instances.idxOf p]? = some p :=
          List.getElem?_eq_some_iff.2 ⟨List.idxOf_lt_length_of_mem m1, List.getElem_idxOf _⟩
        have b : root.instances[root.instances.idxOf p']? = some p' :=
          List.getElem?_eq_some_iff.2 ⟨List.idxOf_lt_length_of_mem m2, List.getElem_idxOf _⟩
        rw [hq', a] at b
        exact Option.some.inj b
      · cases hq'
    · cases hq
  · intro q
    rw [e4]
    have hnd : root.instances.Nodup := by rw [← hp]; exact hl
    constructor
    · intro hlt
      refine ⟨root.instances[q], ?_⟩
      unfold numbered
      rw [if_pos (List.getElem_mem hlt), hnd.idxOf_getElem]
    · rintro ⟨p, hp⟩
      unfold numbered at hp
      split at hp
      · rename_i hm
        cases hp
        exact List.idxOf_lt_length_of_mem hm
      · cases hp
  · intro p inst hm
    have hpr : p ∈ root.instances := by rw [← hp]; exact List.mem_map_of_mem (f := Prod.fst) hm
    obtain ⟨q, inst', r, i, a1, a2, a3, a4, a5, a6, a7, a8, a9⟩ := e5 p hpr
    rw [hg _ hm] at a2; cases a2
    refine ⟨q, i, r, a1, a4, a3, a6, a5, a7, a8, ?_⟩
    intro n
    have := a9 n
    split
    · rename_i hn; exact this.1 hn
    · rename_i v hv; exact this.2 v hv

/-- Two instances that refer to each other, and to one that is not part of the root. -/
def jsonHeap : Heap Nat :=
  [(4, { className := [87#8], isService := true, properties := [([82#8], .reference (some 2)), ([78#8], .float 0x3F800000)] }),
   (2, { className := [80#8], reference := [120#8], properties := [([82#8], .reference (some 4)), ([81#8], .reference (some 9)),
     ([66#8], .binaryString [1#8, 2#8, 3#8])] }),
   (9, { className := [70#8] })]

/-- The tree meets the hypotheses of `C52_flat_partial`. -/
example : Trees jsonHeap [4, 2] (jsonHeap.take 2) ∧ (∀ x ∈ jsonHeap.take 2, x.2.children = []) ∧
    (∀ x ∈ jsonHeap.take 2, x.2.properties.Ok) ∧
    (∀ x ∈ jsonHeap.take 2, ∀ n v, x.2.properties.get? n = some v → JsonSupported v) ∧
    (rootTo (genOf counter) 1 .id jsonHeap 0 { instances := [4, 2] }).isOk := by
  refine ⟨⟨.cons (below := []) rfl .nil (.cons (below := []) rfl .nil .nil), by unfold Map.Ok; decide⟩, ?_, ?_, ?_,
    by decide +kernel⟩
  · simp [jsonHeap]
  · intro x hx
    simp only [jsonHeap, List.take_succ_cons, List.take_zero, List.mem_cons, List.not_mem_nil, or_false] at hx
    rcases hx with rfl | rfl <;> (unfold Map.Ok; decide)
  · intro x hx n v hv
    have := Map.mem_of_get? hv
    simp only [jsonHeap, List.take_succ_cons, List.take_zero, List.mem_cons, List.not_mem_nil, or_false] at hx
    rcases hx with rfl | rfl
    · simp only [List.mem_cons, Prod.mk.injEq, List.not_mem_nil, or_false] at this
      rcases this with ⟨-, rfl⟩ | ⟨-, rfl⟩ <;> exact trivial
    · simp only [List.mem_cons, Prod.mk.injEq, List.not_mem_nil, or_false] at this
      rcases this with ⟨-, rfl⟩ | ⟨-, rfl⟩ | ⟨-, rfl⟩ <;> first | exact trivial | exact rfl

/-- C52 (partial), for `Encode` and `Decode`: if `encoding/json` returns the interface it was given, `Decode` of what
`Encode` wrote is what `RootFromJSONInterface` makes of the interface. -/
theorem C52_text_partial (T : Text) (rand : Nat → Bytes) (fuel : Nat) (O : Overflow) (it1 it2 : Iter) (h : Heap Nat)
    (pos : Nat) (root : Root Nat) {j : JVal} {h1 : Heap Nat} {b : Bytes} {r : Heap Nat × Root Nat}
    (he : rootTo (genOf rand) fuel it1 h pos root = .ok (j, h1)) (hb : T.marshal j = .ok b)
    (hT : T.unmarshal b = .ok j) (hr : rootFrom O it2 j = .ok (some r)) :
    encode T (genOf rand) fuel it1 h pos root = .ok b ∧ decode T O it2 b = .ok r := by
  constructor
  · rw [encode, he]; exact hb
  · rw [decode, hT]; simp [hr]

/-- C52 fails for every tree that is not flat: if an instance of the root has a child, the conversion back panics. -/
theorem C52_children_fails (rand : Nat → Bytes) (fuel : Nat) (O : Overflow) (it1 it2 : Iter) {h : Heap Nat} (pos : Nat)
    {root : Root Nat} {p : Nat} {inst : Inst Nat} (hp : p ∈ root.instances) (hi : h.get? p = some inst)
    (hc : inst.children ≠ []) {j : JVal} {h1 : Heap Nat}
    (he : rootTo (genOf rand) fuel it1 h pos root = .ok (j, h1)) : rootFrom O it2 j = .panic := by
  unfold rootTo at he
  obtain ⟨⟨js, st⟩, hl, he⟩ := Res.bind_eq_ok.1 he
  cases he
  obtain ⟨-, hj⟩ := listTo_ext (instTo_ext (genOf_nonempty rand) _) hl
  obtain ⟨j, hjm, a, b, ext, hj⟩ := Each.mem_left hj p hp
  obtain ⟨inst', r, props, kids, st1, d, rfl, -, h1, h2⟩ := instTo_shape hj
  obtain ⟨r', hr'⟩ := ext.heap p inst hi
  rw [hr'] at h1
  cases h1
  -- the child
  obtain ⟨c, hcm⟩ := List.exists_mem_of_ne_nil _ hc
  obtain ⟨k, hkm, a', b', hk⟩ := Each.mem_left (listTo_each h2) c hcm
  obtain ⟨kinst, kr, kprops, kkids, -, -, rfl, -⟩ := instTo_shape hk
  obtain ⟨km, ek, ck, -⟩ := instObj_class kinst kr kprops kkids
  rw [ek] at hkm
  obtain ⟨m, em, cm, km'⟩ := instObj_class { inst with reference := r' } r props kids
  have hpanic : ∀ s, instFrom O it2 (instObj { inst with reference := r' } r props kids) s = .panic := by
    rw [em]
    exact instFrom_panic cm km' ⟨km, _, hkm, ck⟩
  refine (rootFrom_noErr O it2 _).panic_of ?_
  intro o ho
  have a : index (.obj [(str "rbxfile_version", .num (intToF64 0)), (str "instances", .arr js)]) (str "rbxfile_version") =
    some (.num (intToF64 0)) := rfl
  have b : index (.obj [(str "rbxfile_version", .num (intToF64 0)), (str "instances", .arr js)]) (str "instances") =
    some (.arr js) := rfl
  have c : f64ToInt O 64 (intToF64 0) = 0#64 := by
    have := f64ToInt_back O (by decide : 0 < 64) 0#64 (by decide) ⟨0, 0, by decide, by decide⟩
    simpa using this
  rw [rootFrom, a] at ho
  simp only [c, if_true, b] at ho
  rw [listFrom_panic js ⟨_, hjm, hpanic⟩] at ho
  cases ho

example : (7 : Nat) ∈ [7] ∧ (rootTo (genOf counter) 1 .id [(7, { className := [87#8], children := [3] }),
    (3, { className := [80#8] })] 0 { instances := [7] }).isOk := by decide +kernel

/-- C52: an interface of the wrong shape is rejected: if it is not an object with a number `rbxfile_version`, if that
number, converted to an integer, is not 0, or if `instances` is not a list. -/
theorem C52_rejected (O : Overflow) (it : Iter) (j : JVal) :
    ((∀ f, index j (str "rbxfile_version") ≠ some (.num f)) → rootFrom O it j = .ok none) ∧
    (∀ n : Int, n ≠ 0 → n.natAbs < 2 ^ 53 → index j (str "rbxfile_version") = some (.num (intToF64 n)) →
      rootFrom O it j = .ok none) ∧
    ((∀ l, index j (str "instances") ≠ some (.arr l)) → rootFrom O it j = .ok none) := by
  refine ⟨?_, ?_, ?_⟩
  · intro h
    unfold rootFrom
    split
    · rename_i f hf; exact absurd hf (h f)
    · rfl
  · intro n h0 hn h
    unfold rootFrom
    rw [h]
    have hb : (BitVec.ofInt 64 n).toInt = n := by
      rw [BitVec.toInt_ofInt, Int.bmod_def]
      split <;> omega
    have := f64ToInt_back O (by decide : 0 < 64) (BitVec.ofInt 64 n) (by decide)
      ⟨n.natAbs, 0, by rw [hb]; simp, hn⟩
    rw [hb] at this
    simp only [this]
    rw [if_neg]
    intro e
    rw [e] at hb
    exact h0 hb.symm
  · intro h
    unfold rootFrom
    split
    · split
      · split
        · rename_i l hl; exact absurd hl (h l)
        · rfl
      · rfl
    · rfl

/-- C52 (partial): the conversion does not panic if the instances of the document have no instances as children, and no
value of a property lacks a part of its type: it returns a root or rejects the document. -/
theorem C52_no_panic_partial (O : Overflow) (it : Iter) (j : JVal)
    (h : ∀ l, index j (str "instances") = some (.arr l) →
      ∀ i ∈ l, ShapedInstance JsonForm.typeOf i) : ∃ o, rootFrom O it j = .ok o := by
  rw [← typeNamed_eq it] at h
  unfold rootFrom
  split
  · split
    · split
      · rename_i l hl
        exact Returns.bind (listFrom_returns (h l hl) _) fun _ => .ok _
      · exact ⟨_, rfl⟩
    · exact ⟨_, rfl⟩
  · exact ⟨_, rfl⟩

example : ShapedInstance (fun t => tyOf (typeFromString .id t)) (.obj [(str "class_name", .str []),
    (str "children", .arr [.null]), (str "properties", .obj [([80#8], .obj [(str "type", .str (str "Axes")),
      (str "value", .obj [(str "x", .bool true), (str "y", .bool true), (str "z", .bool false)])]), ([81#8], .null)])]) := by
  intro m hm
  cases hm
  refine ⟨?_, ?_⟩
  · intro l hl c hc
    cases hl
    simp only [List.mem_singleton] at hc
    subst hc
    rintro ⟨m, cls, e, -⟩
    cases e
  · intro ps hps n pm hmem t v ht hv
    cases hps
    simp only [List.mem_cons, Prod.mk.injEq, List.not_mem_nil, or_false, reduceCtorEq, and_false] at hmem
    obtain ⟨-, hmem⟩ := hmem
    cases hmem
    cases ht
    cases hv
    have e : tyOf (typeFromString .id (str "Axes")) = .axes := by decide +kernel
    simp only [e]
    intro k hk
    simp only [List.mem_cons, List.not_mem_nil, or_false] at hk
    rcases hk with rfl | rfl | rfl <;> exact ⟨_, rfl⟩

/-- C52 fails: a document whose only property is of type UDim, with an empty object for its value, makes the conversion
panic; so does one with a child. -/
theorem C52_shape_fails (O : Overflow) :
    rootFrom O .id (.obj [(str "rbxfile_version", .num 0), (str "instances", .arr [.obj [(str "class_name", .str []),
      (str "properties", .obj [([80#8], .obj [(str "type", .str (str "UDim")), (str "value", .obj [])])])]])]) = .panic ∧
    rootFrom O .id (.obj [(str "rbxfile_version", .num 0), (str "instances", .arr [.obj [(str "class_name", .str []),
      (str "children", .arr [.obj [(str "class_name", .str [])]])]])]) = .panic := by
  have h0 : f64ToInt O 64 0#64 = 0#64 := by
    have := f64ToInt_back O (by decide : 0 < 64) 0#64 (by decide) ⟨0, 0, by decide, by decide⟩
    rw [show intToF64 (0#64).toInt = 0#64 by decide +kernel] at this
    exact this
  have key : ∀ j, (∀ s, instFrom O .id j s = .panic) → rootFrom O .id
      (.obj [(str "rbxfile_version", .num 0), (str "instances", .arr [j])]) = .panic := by
    intro j hj
    have a : index (.obj [(str "rbxfile_version", .num 0), (str "instances", .arr [j])]) (str "rbxfile_version") =
      some (.num 0) := rfl
    have b : index (.obj [(str "rbxfile_version", .num 0), (str "instances", .arr [j])]) (str "instances") =
      some (.arr [j]) := rfl
    rw [rootFrom, a]
    simp only [show f64ToInt O 64 0 = 0#64 from h0, if_true, b]
    rw [listFrom_panic [j] ⟨j, by simp, hj⟩]
    rfl
  refine ⟨key _ fun s => ?_, key _ fun s => instFrom_panic rfl rfl ⟨[(str "class_name", .str [])], [], by simp, rfl⟩ s⟩
  have hp : propFrom O .id (.obj [(str "type", .str (str "UDim")), (str "value", .obj [])]) = .panic := by
    have a : index (.obj [(str "type", .str (str "UDim")), (str "value", .obj [])]) (str "type") =
      some (.str (str "UDim")) := rfl
    have b : index (.obj [(str "type", .str (str "UDim")), (str "value", .obj [])]) (str "value") =
      some (.obj []) := rfl
    have t : tyOf (typeFromString .id (str "UDim")) = .udim := by decide +kernel
    have v : valueFrom (ρ := Nat) O .id .udim (.obj []) = .panic := by rw [valueFrom]; rfl
    rw [propFrom, a, b]
    simp only [t, v]
  refine (instFrom_noErr O .id _ _).panic_of ?_
  rintro ⟨o, s'⟩ hi
  rw [instFrom, show Map.get? [(str "class_name", JVal.str []), (str "properties", .obj [([80#8],
    .obj [(str "type", .str (str "UDim")), (str "value", .obj [])])])] (str "class_name") = some (.str []) from rfl] at hi
  obtain ⟨s1, h1, -⟩ := Res.bind_eq_ok.1 hi
  have c : index (.obj [(str "class_name", JVal.str []), (str "properties", .obj [([80#8],
    .obj [(str "type", .str (str "UDim")), (str "value", .obj [])])])]) (str "properties") = some (.obj [([80#8],
    .obj [(str "type", .str (str "UDim")), (str "value", .obj [])])]) := rfl
  unfold fill at h1
  have r : ∀ k (l : List (Bytes × JVal)), Iter.id.run k l = l := fun _ _ => rfl
  simp only [c, r, propsFrom, hp] at h1
  cases h1

/-- C52: exactly the documents that make the conversion panic. It panics if and only if the document has version 0 and, in
its list `instances`, an element that stands for an instance and has an instance among its children, or a property whose
value cannot be converted to its type: it lacks a part of the type, or it is an Optional without a type or with a value of
another kind. -/
theorem C52_panics_iff (O : Overflow) (it : Iter) (j : JVal) :
    rootFrom O it j = .panic ↔
    ∃ f l i, index j (str "rbxfile_version") = some (.num f) ∧ f64ToInt O 64 f = 0#64 ∧
      index j (str "instances") = some (.arr l) ∧ i ∈ l ∧
      ∃ m cls, i = .obj m ∧ Map.get? m (str "class_name") = some (.str cls) ∧
        ((∃ cs c, Map.get? m (str "children") = some (.arr cs) ∧ c ∈ cs ∧ IsInstance c) ∨
        ∃ ps n pm t v, Map.get? m (str "properties") = some (.obj ps) ∧ (n, .obj pm) ∈ ps ∧
          Map.get? pm (str "type") = some (.str t) ∧ Map.get? pm (str "value") = some v ∧
          ¬ WellShaped JsonForm.typeOf (JsonForm.typeOf t) v) := by
  rw [← typeNamed_eq it]
  unfold rootFrom
  split
  · rename_i f hf
    split
    · rename_i hv
      split
      · rename_i l hl
        have h1 : ∀ {α β : Type} (x : Res α) (g : α → β), (x >>= fun a => pure (g a)) = Res.panic ↔ x = .panic := by
          intro α β x g
          cases x <;> simp [bind, Res.bind, pure]
        rw [h1]
        have h2 : listFrom O it l {} = .panic ↔ ¬ Returns (listFrom O it l {}) := by
          constructor
          · intro h; rw [h]; exact not_returns_panic
          · intro h; exact (listFrom_noErr O it l _).panic_of fun a ha => h ⟨a, ha⟩
        rw [h2, listFrom_iff]
        constructor
        · intro h
          have : ∃ i ∈ l, ¬ WellShapedInstance (typeNamed it) i := by
            refine Classical.byContradiction fun hc => h fun i hi => Classical.byContradiction fun hw => hc ⟨i, hi, hw⟩
          obtain ⟨i, hi, hw⟩ := this
          refine ⟨f, l, i, hf, hv, hl, hi, ?_⟩
          refine Classical.byContradiction fun hc => hw ?_
          rintro m cls rfl hm
          refine ⟨fun cs hcs c hcm hci => hc ⟨m, cls, rfl, hm, .inl ⟨cs, c, hcs, hcm, hci⟩⟩, ?_⟩
          intro ps hps n pm hmem t v ht hval
          exact Classical.byContradiction fun hnw => hc ⟨m, cls, rfl, hm, .inr ⟨ps, n, pm, t, v, hps, hmem, ht, hval, hnw⟩⟩
        · rintro ⟨f', l', i, hf', -, hl', hi, m, cls, rfl, hm, hor⟩ hall
          rw [hl] at hl'
          cases hl'
          obtain ⟨w1, w2⟩ := hall _ hi m cls rfl hm
          rcases hor with ⟨cs, c, hcs, hcm, hci⟩ | ⟨ps, n, pm, t, v, hps, hmem, ht, hval, hnw⟩
          · exact w1 cs hcs c hcm hci
          · exact hnw (w2 ps hps n pm hmem t v ht hval)
      · rename_i hn
        refine iff_of_false nofun ?_
        rintro ⟨_, l, _, -, -, hl, -⟩
        exact hn l hl
    · rename_i hv
      refine iff_of_false nofun ?_
      rintro ⟨f', _, _, hf', hv', -⟩
      rw [hf] at hf'
      cases hf'
      exact hv hv'
  · rename_i hn
    refine iff_of_false nofun ?_
    rintro ⟨f, _, _, hf, -⟩
    exact hn f hf

/-- Optionals: one without a type cannot be converted, nor one whose value is of another kind; one with an object that has
the parts of its type can. -/
example : ¬ WellShaped (fun t => tyOf (typeFromString .id t)) .optional (.obj []) ∧
    ¬ WellShaped (fun t => tyOf (typeFromString .id t)) .optional
      (.obj [(str "type", .str (str "Bool")), (str "value", .num 0)]) ∧
    WellShaped (fun t => tyOf (typeFromString .id t)) .optional
      (.obj [(str "type", .str (str "Axes")), (str "value", .obj [(str "x", .bool true), (str "y", .bool true),
        (str "z", .bool false)])]) := by
  have eb : tyOf (typeFromString .id (str "Bool")) = .bool := by decide +kernel
  have ea : tyOf (typeFromString .id (str "Axes")) = .axes := by decide +kernel
  refine ⟨?_, ?_, ?_⟩
  · intro h
    cases h with
    | plain h => exact absurd rfl h
    | none h => exact absurd rfl (h _)
    | absent h => cases h
    | null h => cases h
    | value h => cases h
  · intro h
    cases h with
    | plain h => exact absurd rfl h
    | none h => exact absurd rfl (h _)
    | absent h h2 => cases h2
    | null h h2 => cases h2
    | value h h2 h3 =>
      cases h
      cases h2
      rw [eb] at h3
      exact h3
  · refine .value rfl rfl ?_ ?_
    · rw [ea]; trivial
    · rw [ea]
      refine .plain (by decide) ?_
      intro k hk
      simp only [List.mem_cons, List.not_mem_nil, or_false] at hk
      rcases hk with rfl | rfl | rfl <;> exact ⟨_, rfl⟩

end Props
