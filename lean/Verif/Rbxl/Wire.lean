import Verif.Spec.Wire
import Verif.Rbxl.FileLemmas
/-!
# The encoder writes the bytes of `Spec.Wire`
-/
namespace Rbxl
open Go Spec

/-! ## Numbers -/

theorem le16_wire (v : BitVec 16) : le16 v = Wire.little 2 v.toNat := by
  simp only [le16, Wire.little, List.cons.injEq, and_true]
  refine ⟨BitVec.eq_of_toNat_eq ?_, BitVec.eq_of_toNat_eq ?_⟩ <;> simp [Nat.shiftRight_eq_div_pow]

theorem le32_wire (v : BitVec 32) : le32 v = Wire.little 4 v.toNat := by
  simp only [le32, Wire.little, List.cons.injEq, and_true]
  refine ⟨?_, ?_, ?_, ?_⟩ <;> apply BitVec.eq_of_toNat_eq <;>
    simp [Nat.shiftRight_eq_div_pow, Nat.div_div_eq_div_mul]

theorem le64_wire (v : BitVec 64) : le64 v = Wire.little 8 v.toNat := by
  simp only [le64, Wire.little, List.cons.injEq, and_true]
  refine ⟨?_, ?_, ?_, ?_, ?_, ?_, ?_, ?_⟩ <;> apply BitVec.eq_of_toNat_eq <;>
    simp [Nat.shiftRight_eq_div_pow, Nat.div_div_eq_div_mul]

theorem be32_wire (v : BitVec 32) : be32 v = Wire.big 4 v.toNat := by
  have h := congrArg List.reverse (le32_wire v)
  simpa [le32, be32, Wire.big] using h

theorem be64_wire (v : BitVec 64) : be64 v = Wire.big 8 v.toNat := by
  have h := congrArg List.reverse (le64_wire v)
  simpa [le64, be64, Wire.big] using h

theorem little_mod (n : Nat) : Wire.little 4 (n % 2 ^ 32) = Wire.little 4 n := by
  simp only [Wire.little, List.cons.injEq, and_true]
  refine ⟨?_, ?_, ?_, ?_⟩ <;> apply BitVec.eq_of_toNat_eq <;> simp only [BitVec.toNat_ofNat] <;> omega

theorem len_wire {α : Type} (l : List α) : le32 (len32 l) = Wire.little 4 l.length := by
  rw [le32_wire, len32, BitVec.toNat_ofNat, little_mod]

theorem zigzag32_wire (n : BitVec 32) : (encodeZigzag32 n).toNat = Wire.zigzag n.toInt := by
  have hn := n.isLt
  rw [encodeZigzag32_toNat, Wire.zigzag, BitVec.toInt_eq_toNat_cond]
  split <;> split <;> split <;> omega

theorem zigzag64_wire (n : BitVec 64) : (encodeZigzag64 n).toNat = Wire.zigzag n.toInt := by
  have hn := n.isLt
  rw [encodeZigzag64_toNat, Wire.zigzag, BitVec.toInt_eq_toNat_cond]
  split <;> split <;> split <;> omega

theorem int_wire (n : BitVec 32) : intBytes n = Wire.int n := by rw [intBytes, be32_wire, zigzag32_wire, Wire.int]
theorem reference_wire (n : BitVec 32) : (Val.reference n).bytes = Wire.int n := by
  rw [Val.bytes, be32_wire, zigzag32_wire, Wire.int]
theorem int64_wire (n : BitVec 64) : int64Bytes n = Wire.big 8 (Wire.zigzag n.toInt) := by
  rw [int64Bytes, be64_wire, zigzag64_wire]

theorem float_wire (f : F32) : floatBytes f = Wire.float f := by
  have h : (encodeRobloxFloat f).toNat = Wire.signLast f := by
    have hf := f.isLt
    rw [encodeRobloxFloat_toNat, Wire.signLast]; omega
  rw [floatBytes, be32_wire, h, Wire.float]

theorem string_wire (s : Bytes) : stringBytes s = Wire.text s := by rw [stringBytes, len_wire, Wire.text]
theorem writeString_wire (s : Bytes) : writeString s = Wire.text s := by rw [writeString, len_wire, Wire.text]

/-! ## Values -/

theorem position_wire (p : Vec3) : p.bytes = Wire.position p := by
  simp [Vec3.bytes, Wire.position, float_wire]

theorem rotation_wire (id : Byte) (r : Rot) : id :: (if id = 0#8 then r.bytes else []) = Wire.rotation id r := by
  simp only [Wire.rotation, Rot.bytes, List.flatMap_cons, List.flatMap_nil, List.append_nil, Wire.plainFloat, le32_wire]
  rfl

theorem quaternion_wire (id : Byte) (x y z w : F32) :
    id :: (if id = 0#8 then quatBytes x y z w else []) = Wire.quaternion id x y z w := by
  simp only [Wire.quaternion, quatBytes, List.flatMap_cons, List.flatMap_nil, List.append_nil, Wire.plainFloat, le32_wire]
  rfl

theorem faces_wire (a b c d e f : Bool) : [flagsByte [a, b, c, d, e, f]] = Wire.little 1 (Wire.bits [a, b, c, d, e, f]) := by
  cases a <;> cases b <;> cases c <;> cases d <;> cases e <;> cases f <;> decide
theorem axes_wire (a b c : Bool) : [flagsByte [a, b, c]] = Wire.little 1 (Wire.bits [a, b, c]) := by
  cases a <;> cases b <;> cases c <;> decide

theorem value_wire (v : Val) : v.bytes = Wire.value v := by
  cases v <;> simp only [Val.bytes, Wire.value, string_wire, int_wire, float_wire, le64_wire, le32_wire, le16_wire, be32_wire,
    int64_wire, zigzag32_wire, faces_wire, axes_wire, position_wire, Wire.plainFloat, List.flatMap_cons,
    List.flatMap_nil, List.append_nil, List.append_assoc, List.cons_append, List.nil_append]
  case bool b => cases b <;> rfl
  case cframe id r p => rw [← rotation_wire, List.cons_append]
  case cframeQuat id x y z w p => rw [← quaternion_wire, List.cons_append]
  case reference => rfl
  case numberSequence ks =>
    rw [← le32_wire, len_wire]
    congr 2
    funext k
    simp only [NSK.bytes, le32_wire]
  case colorSequence ks =>
    rw [← le32_wire, len_wire]
    congr 2
    funext k
    simp only [CSK.bytes, le32_wire]
  case physicalProperties cp d f e fw ew =>
    by_cases h : cp = 0#8 <;> simp [h]

/-! ## Arrays -/

theorem flatMap_index {α : Type} {n : Nat} (f : α → Bytes) : ∀ (l : List α), (∀ x ∈ l, (f x).length = n) → ∀ (q r : Nat), r < n →
    (l.flatMap f)[q * n + r]? = l[q]?.bind fun x => (f x)[r]?
  | [], _, q, r, _ => by simp
  | x :: l, h, 0, r, hr => by
    have hx := h x (by simp)
    rw [List.flatMap_cons, List.getElem?_append_left (by omega)]
    simp
  | x :: l, h, q + 1, r, hr => by
    have hx := h x (by simp)
    rw [List.flatMap_cons, List.getElem?_append_right (by rw [hx, Nat.add_mul]; omega)]
    have := flatMap_index f l (fun y hy => h y (List.mem_cons_of_mem _ hy)) q r hr
    rw [List.getElem?_cons_succ, ← this]
    congr 1
    rw [hx, Nat.add_mul]; omega

theorem filterMap_full {rows : List Bytes} {k j : Nat} (h : ∀ r ∈ rows, r.length = k) (hj : j < k) :
    (rows.filterMap fun r => r[j]?).length = rows.length ∧
    ∀ i : Nat, (rows.filterMap fun r => r[j]?)[i]? = rows[i]?.bind fun (r : Bytes) => r[j]? := by
  induction rows with
  | nil => simp
  | cons r rows ih =>
    obtain ⟨h1, h2⟩ := ih fun x hx => h x (List.mem_cons_of_mem _ hx)
    have hlt : j < r.length := by rw [h r (by simp)]; exact hj
    have hr : r[j]? = some r[j] := List.getElem?_eq_getElem hlt
    constructor
    · rw [List.filterMap_cons_some (f := fun (r : Bytes) => r[j]?) hr]; simp [h1]
    · intro i
      rw [List.filterMap_cons_some (f := fun (r : Bytes) => r[j]?) hr]
      cases i with
      | zero => simp [hr]
      | succ i => simpa using h2 i

/-- Interleaving writes the rows by columns. -/
theorem interleave_wire {α : Type} (f : α → Bytes) (l : List α) (k : Nat) (hk : 0 < k) (hne : l ≠ [])
    (h : ∀ x ∈ l, (f x).length = k) : interleave (l.flatMap f) k = .ok (Wire.columns k (l.map f)) := by
  have hpos : 0 < l.length := List.length_pos_iff.2 hne
  have hlen : (l.flatMap f).length = l.length * k := by
    rw [List.length_flatMap]
    clear hpos hne
    induction l with
    | nil => simp
    | cons x l ih =>
      rw [List.map_cons, List.sum_cons, ih fun y hy => h y (List.mem_cons_of_mem _ hy), h x (by simp)]
      simp only [List.length_cons, Nat.add_mul]; omega
  have hrows : ∀ r ∈ l.map f, r.length = k := by
    intro r hr
    obtain ⟨x, hx, rfl⟩ := List.mem_map.1 hr
    exact h x hx
  obtain ⟨out, h1, h2, h3⟩ := interleave_spec (l.flatMap f) k l.length hk hpos hlen
  rw [h1]
  congr 1
  have hcol : ∀ j ∈ List.range k, ((l.map f).filterMap fun r => r[j]?).length = l.length := by
    intro j hj
    rw [(filterMap_full hrows (List.mem_range.1 hj)).1, List.length_map]
  have hl : (Wire.columns k (l.map f)).length = k * l.length := by
    have : ∀ js : List Nat, (∀ j ∈ js, ((l.map f).filterMap fun r => r[j]?).length = l.length) →
        (js.flatMap fun j => (l.map f).filterMap fun r => r[j]?).length = js.length * l.length := by
      intro js
      induction js with
      | nil => simp
      | cons j js ih =>
        intro hj
        rw [List.flatMap_cons, List.length_append, hj j (by simp), ih fun y hy => hj y (List.mem_cons_of_mem _ hy)]
        simp only [List.length_cons, Nat.add_mul]; omega
    rw [Wire.columns, this _ hcol, List.length_range]
  refine ext_grid (size := l.length) (count := k) hpos (by rw [h2, hlen, Nat.mul_comm]) hl ?_
  intro j i hj hi
  rw [h3 i j hi hj, flatMap_index f l h i j hj, Wire.columns, flatMap_index _ (List.range k) hcol j i hi,
    List.getElem?_range hj]
  simp only [Option.bind_some]
  rw [(filterMap_full hrows hj).2 i, List.getElem?_map]
  cases l[i]? <;> rfl

theorem differences_wire : ∀ (prev : BitVec 32) (ns : List (BitVec 32)), refDeltas prev ns = Wire.differences prev ns
  | _, [] => rfl
  | prev, n :: ns => by rw [refDeltas, Wire.differences, differences_wire n ns]

theorem int_length (n : BitVec 32) : (Wire.int n).length = 4 := rfl

theorem differences_length : ∀ (prev : BitVec 32) (ns : List (BitVec 32)), (Wire.differences prev ns).length = ns.length
  | _, [] => rfl
  | prev, n :: ns => by simp [Wire.differences, differences_length n ns]

theorem references_ok (ns : List (BitVec 32)) (hne : ns ≠ []) :
    interleave (refsBytes ns) 4 = .ok (Wire.references ns) := by
  rw [refsBytes_eq, differences_wire]
  simp only [reference_wire]
  refine interleave_wire Wire.int _ 4 (by decide) (fun h => hne ?_) fun x _ => int_length x
  have := congrArg List.length h
  rw [differences_length] at this
  exact List.length_eq_zero_iff.1 this

theorem refArray_wire (ns : List (BitVec 32)) (hne : ns ≠ []) : refArrayToBytes ns = .ok (Wire.references ns) := by
  have h : plainToBytes .reference (ns.map Val.reference) = .ok (Wire.references ns) := by
    simp only [plainToBytes, plainBytes, List.map_map, interleaved, TypeID.size, Res.ok_bind, if_true]
    have : ns.map (Val.refNum ∘ Val.reference) = ns := by
      rw [show Val.refNum ∘ Val.reference = id from rfl, List.map_id]
    rw [this, references_ok ns hne]
  rw [refArrayToBytes, h]

theorem references_nil : Wire.references [] = [] := rfl

theorem head_wire (v : Val) : v.cframeHead = Wire.rotationOf v := by
  cases v <;> simp only [Val.cframeHead, Wire.rotationOf, rotation_wire, quaternion_wire]

theorem byColumn_wire (t : TypeID) : interleaved t = true ↔ t ∈ Wire.byColumn := by cases t <;> decide

theorem typeByte_wire (t : TypeID) : t.toByte = Wire.typeByte t := by cases t <;> rfl

theorem interleave_nil (k : Nat) (x : Bytes) : interleave [] k ≠ .ok x := by
  unfold interleave
  split
  · nofun
  · split
    · nofun
    · simp [transpose]

theorem size_of_byColumn {t : TypeID} (h : interleaved t = true) : ∃ k, 0 < k ∧ t.size = some k := by
  cases t <;> simp [interleaved] at h <;> exact ⟨_, by decide, rfl⟩

/-- A non-empty array is written as the specification says. -/
theorem plain_ok (t : TypeID) (vs : List Val) (hne : vs ≠ []) (h : ∀ v ∈ vs, v.type = t) :
    plainToBytes t vs = .ok (Wire.elements t vs) := by
  have hcf : (t = .cframe ∨ t = .cframeQuat) → cframesBytes vs = .ok (vs.flatMap Wire.rotationOf ++ Wire.columns 12 (vs.map Wire.positionOf)) := by
    intro ht
    have e : (vs.flatMap fun v => v.cframePos.bytes) = vs.flatMap Wire.positionOf := by
      rw [List.flatMap_def, List.flatMap_def]
      congr 1
      apply List.map_congr_left
      intro v hv
      have := h v hv
      rcases ht with rfl | rfl <;> cases v <;> simp [Val.type] at this <;> simp [Val.cframePos, Wire.positionOf, position_wire]
    have e2 : (vs.flatMap Val.cframeHead) = vs.flatMap Wire.rotationOf := by
      rw [show Val.cframeHead = Wire.rotationOf from funext head_wire]
    have hl : ∀ v ∈ vs, (Wire.positionOf v).length = 12 := by
      intro v hv
      have := h v hv
      rcases ht with rfl | rfl <;> cases v <;> simp [Val.type] at this <;> rfl
    simp only [cframesBytes, interleaveIgnoringError, e, e2, interleave_wire Wire.positionOf vs 12 (by decide) hne hl, Res.ok_bind,
      Res.pure_eq]
  by_cases hc : t = .cframe ∨ t = .cframeQuat
  · rw [Wire.elements, if_pos hc]
    rcases hc with rfl | rfl <;> simp [plainToBytes, plainBytes, interleaved, hcf]
  · rw [Wire.elements, if_neg hc]
    by_cases hr : t = .reference
    · subst hr
      have hn : vs.map Val.refNum = vs.map Wire.number := List.map_congr_left fun v _ => by cases v <;> rfl
      simp only [plainToBytes, plainBytes, interleaved, TypeID.size, Res.ok_bind, if_true, hn]
      exact references_ok _ (by simpa using hne)
    · rw [if_neg hr]
      have hb : plainBytes t vs = .ok (vs.flatMap Wire.value) := by
        have e : Val.bytes = Wire.value := funext value_wire
        cases t <;> simp_all [plainBytes]
      by_cases hi : interleaved t = true
      · obtain ⟨k, hk, hs⟩ := size_of_byColumn hi
        have hl : ∀ v ∈ vs, (Wire.value v).length = k := by
          intro v hv
          rw [← value_wire]
          exact v.bytes_length_of_size k (by rw [h v hv]; exact hs)
        have hh : (Wire.value (vs.headD (.bool false))).length = k := by
          cases vs with
          | nil => exact absurd rfl hne
          | cons v vs => exact hl v (by simp)
        rw [if_pos ((byColumn_wire t).1 hi), hh]
        simp only [plainToBytes, hb, Res.ok_bind, hi, if_true, hs]
        exact interleave_wire Wire.value vs k hk hne hl
      · rw [if_neg fun hm => hi ((byColumn_wire t).2 hm)]
        simp [plainToBytes, hb, hi]

theorem plain_wire {t : TypeID} {vs : List Val} {x : Bytes} (h : ∀ v ∈ vs, v.type = t) (hx : plainToBytes t vs = .ok x) :
    x = Wire.elements t vs := by
  by_cases hne : vs = []
  · subst hne
    cases t <;> first
      | (have e : x = [] := by injection hx with hx; exact hx.symm
         rw [e]; rfl)
      | cases hx
  · rw [plain_ok t vs hne h] at hx
    injection hx with hx
    exact hx.symm

theorem flags_wire (present : List Bool) : plainToBytes .bool (present.map Val.bool) = .ok (present.map Wire.flag) := by
  have : (present.map Val.bool).flatMap Val.bytes = present.map Wire.flag := by
    induction present with
    | nil => rfl
    | cons b bs ih =>
      rw [List.map_cons, List.flatMap_cons, ih, List.map_cons]
      cases b <;> rfl
  rw [← this]; rfl

theorem array_wire : ∀ {a : Arr} {x : Bytes}, Wire.Typed a → a.toBytes = .ok x → x = Wire.array a
  | .plain t vs, x, h, hx => plain_wire h hx
  | .optNil _, x, _, hx => by
    injection hx with hx
    exact hx.symm
  | .optional a present, x, h, hx => by
    simp only [Arr.toBytes, Res.bind_eq_ok, flags_wire, Res.ok_bind, Res.pure_eq, Res.ok.injEq] at hx
    obtain ⟨y, hy, hx⟩ := hx
    rw [array_wire (a := a) h hy] at hx
    rw [← hx, Wire.array, typeByte_wire, typeByte_wire]
    rfl

theorem typeArray_wire {a : Arr} {x : Bytes} (h : Wire.Typed a) (hx : typeArrayToBytes a = .ok x) :
    x = Wire.typeByte a.type :: Wire.array a := by
  simp only [typeArrayToBytes, Res.bind_eq_ok, Res.pure_eq, Res.ok.injEq] at hx
  obtain ⟨y, hy, hx⟩ := hx
  rw [← hx, array_wire h hy, typeByte_wire]

/-! ## Chunks -/

theorem signature_wire (b : Body) : le32 b.sig = Wire.signature b := by
  cases b <;> simp only [Body.sig, Wire.signature, le32_wire] <;> rfl

/-- The elements of the array of a chunk have the type of the array. -/
def TypedBody : Body → Prop
  | .prop c => ∀ a, c.props = some a → Wire.Typed a
  | _ => True

theorem references_opt (ns : List (BitVec 32)) :
    (if ns = [] then .ok [] else refArrayToBytes ns : Res Bytes) = .ok (Wire.references ns) := by
  by_cases h : ns = []
  · subst h; rfl
  · rw [if_neg h, refArray_wire ns h]

theorem payload_wire {b : Body} {x : Bytes} (h : TypedBody b) (hx : b.payload = .ok x) : x = Wire.content b := by
  cases b with
  | inst c =>
    simp only [Body.payload, Res.pure_eq, references_opt, Res.ok_bind, Res.ok.injEq, le32_wire, writeString_wire] at hx
    rw [← hx, ← le32_wire (len32 _), len_wire]
    simp only [Wire.content, Wire.flag, List.append_assoc, List.cons_append, List.nil_append]
    rfl
  | parent c =>
    simp only [Body.payload] at hx
    split at hx
    · cases hx
    · rename_i hl
      have hp : (if c.children = [] then .ok [] else refArrayToBytes c.parents : Res Bytes) = .ok (Wire.references c.parents) := by
        by_cases hc : c.children = []
        · have : c.parents = [] := by
            rw [hc] at hl; simpa using hl
          rw [if_pos hc, this]; rfl
        · rw [if_neg hc, refArray_wire]
          intro hn
          rw [hn] at hl
          simp at hl
          exact hc (List.length_eq_zero_iff.1 hl.symm)
      simp only [references_opt, hp, Res.ok_bind, Res.pure_eq, Res.ok.injEq, len_wire] at hx
      rw [← hx]
      simp only [Wire.content, List.append_assoc, List.cons_append, List.nil_append]
  | prop c =>
    obtain ⟨cls, name, props⟩ := c
    cases props with
    | none =>
      simp only [Body.payload, Res.ok_bind, Res.pure_eq, Res.ok.injEq, le32_wire, writeString_wire] at hx
      rw [← hx]
      simp only [Wire.content, List.append_assoc]
    | some a =>
      simp only [Body.payload, Res.bind_eq_ok, Res.pure_eq, Res.ok.injEq, le32_wire, writeString_wire] at hx
      obtain ⟨y, hy, hx⟩ := hx
      rw [typeArray_wire (h a rfl) hy] at hx
      rw [← hx]
      simp only [Wire.content, List.append_assoc]
  | metadata vs =>
    simp only [Body.payload, Res.pure_eq, Res.ok.injEq, len_wire, writeString_wire] at hx
    rw [← hx, Wire.content]
  | shared c =>
    simp only [Body.payload, Res.pure_eq, Res.ok.injEq, len_wire, le32_wire, writeString_wire] at hx
    rw [← hx, ← le32_wire (len32 _), len_wire]
    simp only [Wire.content, List.append_assoc]
  | end_ c => injection hx with hx; exact hx.symm
  | unknown s c => injection hx with hx; exact hx.symm
  | errored s c => injection hx with hx; exact hx.symm

theorem frame_wire {lz : LZ4} {u : Bool} {c : Chunk} {x : Bytes} (h : TypedBody c.body) (hx : writeChunk lz u c = .ok x) :
    Wire.Frame lz (c.compressed && !u) c.body x := by
  simp only [writeChunk, Res.bind_eq_ok] at hx
  obtain ⟨p, hp, hx⟩ := hx
  have hp' := payload_wire h hp
  subst hp'
  have hcomp : (if u then false else c.compressed) = (c.compressed && !u) := by cases u <;> simp
  rw [hcomp] at hx
  simp only [rawWrite] at hx
  rw [Wire.Frame]
  split at hx
  · rename_i hcc
    rw [if_pos hcc]
    simp only [Res.bind_eq_ok, Res.pure_eq, Res.ok.injEq] at hx
    obtain ⟨data, hd, hx⟩ := hx
    refine ⟨data, hd, ?_⟩
    rw [← hx, signature_wire, len_wire, len_wire, le32_wire]
    simp only [List.append_assoc]
    rfl
  · rename_i hcc
    rw [if_neg hcc]
    simp only [Res.pure_eq, Res.ok.injEq] at hx
    rw [← hx, signature_wire, len_wire, le32_wire]
    simp only [List.append_assoc]
    rfl

theorem chunks_wire {lz : LZ4} {u : Bool} : ∀ {cs : List Chunk} {x : Bytes}, (∀ c ∈ cs, TypedBody c.body) →
    writeChunks lz u cs = .ok x →
    ∃ frames, List.Forall₂ (fun c b => Wire.Frame lz (c.compressed && !u) c.body b) cs frames ∧ x = frames.flatten
  | [], x, _, hx => ⟨[], .nil, by injection hx with hx; exact hx.symm⟩
  | c :: cs, x, h, hx => by
    simp only [writeChunks, Res.bind_eq_ok, Res.pure_eq, Res.ok.injEq] at hx
    obtain ⟨y, hy, z, hz, rfl⟩ := hx
    obtain ⟨frames, hf, rfl⟩ := chunks_wire (fun d hd => h d (List.mem_cons_of_mem _ hd)) hz
    exact ⟨y :: frames, .cons (frame_wire (h c (by simp)) hy) hf, rfl⟩

theorem file_wire {lz : LZ4} {u : Bool} {m : FormatModel} {x : Bytes} (h : ∀ c ∈ m.chunks, TypedBody c.body)
    (hx : encodeFile lz u m = .ok x) : Wire.File lz u m x := by
  simp only [encodeFile, Res.bind_eq_ok, Res.pure_eq, Res.ok.injEq] at hx
  obtain ⟨y, hy, rfl⟩ := hx
  obtain ⟨frames, hf, rfl⟩ := chunks_wire h hy
  refine ⟨frames, hf, ?_⟩
  simp only [fileHeader, le16_wire, le32_wire, le64_wire]
  congr 2

theorem written_content {lz : LZ4} {u : Bool} : ∀ {cs : List Chunk} {x : Bytes}, (∀ c ∈ cs, TypedBody c.body) →
    writeChunks lz u cs = .ok x → ∀ c ∈ cs, c.body.payload = .ok (Wire.content c.body)
  | [], _, _, _, _, hc => by cases hc
  | d :: cs, x, h, hx, c, hc => by
    simp only [writeChunks, Res.bind_eq_ok, Res.pure_eq, Res.ok.injEq] at hx
    obtain ⟨y, hy, z, hz, rfl⟩ := hx
    rcases List.mem_cons.1 hc with rfl | hc
    · simp only [writeChunk, Res.bind_eq_ok] at hy
      obtain ⟨p, hp, -⟩ := hy
      rw [hp, payload_wire (h c List.mem_cons_self) hp]
    · exact written_content (fun d hd => h d (List.mem_cons_of_mem _ hd)) hz c hc

/-! ## The converse -/

theorem frame_write {lz : LZ4} {u : Bool} {c : Chunk} {x : Bytes} (hp : c.body.payload = .ok (Wire.content c.body))
    (hx : Wire.Frame lz (c.compressed && !u) c.body x) : writeChunk lz u c = .ok x := by
  have hcomp : (if u then false else c.compressed) = (c.compressed && !u) := by cases u <;> simp
  simp only [writeChunk, hp, Res.ok_bind, hcomp, rawWrite]
  rw [Wire.Frame] at hx
  split at hx
  · rename_i hcc
    obtain ⟨data, hd, rfl⟩ := hx
    rw [if_pos hcc, hd, signature_wire, len_wire, le32_wire]
    simp only [Res.ok_bind, Res.pure_eq, len_wire, List.append_assoc]
    rfl
  · rename_i hcc
    rw [if_neg hcc, hx, signature_wire, len_wire, le32_wire]
    simp only [Res.pure_eq, List.append_assoc]
    rfl

theorem chunks_write {lz : LZ4} {u : Bool} : ∀ {cs : List Chunk} {frames : List Bytes},
    (∀ c ∈ cs, c.body.payload = .ok (Wire.content c.body)) →
    List.Forall₂ (fun c b => Wire.Frame lz (c.compressed && !u) c.body b) cs frames →
    writeChunks lz u cs = .ok frames.flatten
  | [], _, _, .nil => rfl
  | c :: cs, _, h, .cons h1 h2 => by
    simp only [writeChunks, frame_write (h c (by simp)) h1, Res.ok_bind,
      chunks_write (fun d hd => h d (List.mem_cons_of_mem _ hd)) h2, Res.pure_eq, List.flatten_cons]

theorem file_write {lz : LZ4} {u : Bool} {m : FormatModel} {x : Bytes}
    (h : ∀ c ∈ m.chunks, c.body.payload = .ok (Wire.content c.body)) (hx : Wire.File lz u m x) : encodeFile lz u m = .ok x := by
  obtain ⟨frames, hf, rfl⟩ := hx
  simp only [encodeFile, chunks_write h hf, Res.ok_bind, Res.pure_eq, fileHeader, le16_wire, le32_wire, le64_wire]
  congr 2

/-! ## Files that can be read -/

theorem good_typed {n : Nat} : ∀ {a : Arr}, a.Good n → Wire.Typed a
  | .plain _ _, h => fun v hv => (h.2.2.2 v hv).1
  | .optional (.plain _ _) _, h => fun v hv => (h.2.2.2.2.2 v hv).1

theorem good_typedBody {g : Map (BitVec 32) (Nat × InstChunk)} {b : Body} (h : b.Good g) : TypedBody b := by
  cases b <;> first | trivial | skip
  case prop c =>
    obtain ⟨-, i, inst, -, ha⟩ := h
    exact fun a e => good_typed (ha a e)

theorem good_content {g : Map (BitVec 32) (Nat × InstChunk)} {b : Body} (h : b.Good g) :
    b.payload = .ok (Wire.content b) := by
  obtain ⟨e, he, -⟩ := decodeBody_payload (fun _ => 0) g b h false
  rw [he, payload_wire (good_typedBody h) he]

theorem goodChunks_content : ∀ {cs : List Chunk} {g : Map (BitVec 32) (Nat × InstChunk)} {i : Nat}, GoodChunks g i cs →
    ∀ c ∈ cs, TypedBody c.body ∧ c.body.payload = .ok (Wire.content c.body)
  | [], _, _, h, _, _ => absurd h id
  | [c], _, _, ⟨x, e, _⟩, d, hd => by
    rw [List.mem_singleton.1 hd, e]; exact ⟨trivial, rfl⟩
  | c :: d :: cs, _, _, ⟨h1, _, _, h2⟩, e, he => by
    rcases List.mem_cons.1 he with rfl | he
    · exact ⟨good_typedBody h1, good_content h1⟩
    · exact goodChunks_content h2 e he

end Rbxl
