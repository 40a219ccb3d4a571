import Verif.Props.Arrays
import Verif.Rbxl.ModelLemmas
/-!
# C07, C58: chunk payloads and signatures
-/
namespace Props
open Go Rbxl

/-! ## C07 -/

/-- C07, INST: the payload of an instance chunk decodes to the chunk, nothing is left. (The service
flags are stored only when the class is a service.) -/
theorem C07_inst (c : InstChunk) (hn : c.className.length < 2 ^ 32) (hi : c.ids.length < 2 ^ 30)
    (hs : c.isService = true → c.getService.length = c.ids.length) :
    ∃ e, (Body.inst c).payload = .ok e ∧ ∃ c', decodeInst e = .ok (c', []) ∧
      c'.classID = c.classID ∧ c'.className = c.className ∧ c'.ids = c.ids ∧
      c'.isService = c.isService ∧ c'.getService = if c.isService then c.getService else [] := by
  obtain ⟨e, h1, h2⟩ := decodeInst_payload (g := []) c ⟨hn, hi, hs⟩
  exact ⟨e, h1, _, h2, rfl, rfl, rfl, rfl, rfl⟩

/-- C07, PRNT. -/
theorem C07_parent (c : ParentChunk) (hl : c.parents.length = c.children.length)
    (hi : c.children.length < 2 ^ 30) :
    ∃ e, (Body.parent c).payload = .ok e ∧ decodeParent e = .ok (c, []) :=
  decodeParent_payload (g := []) c ⟨hl, hi⟩

/-- C07, PRNT: arrays of different length are refused when encoding. -/
theorem C07_parent_mismatch (c : ParentChunk) (hl : c.parents.length ≠ c.children.length) :
    (Body.parent c).payload.isErr := by simp [Body.payload, hl]

/-- C07, META. -/
theorem C07_meta (vs : List (Bytes × Bytes)) (hn : vs.length < 2 ^ 32)
    (h : ∀ kv ∈ vs, kv.1.length < 2 ^ 32 ∧ kv.2.length < 2 ^ 32) :
    ∃ e, (Body.metadata vs).payload = .ok e ∧ decodeMeta e = .ok (vs, []) :=
  decodeMeta_payload (g := []) vs ⟨hn, h⟩

/-- C07, SSTR. -/
theorem C07_shared (c : SharedChunk) (hn : c.values.length < 2 ^ 32)
    (h : ∀ hv ∈ c.values, hv.1.length = 16 ∧ hv.2.length < 2 ^ 32) :
    ∃ e, (Body.shared c).payload = .ok e ∧ decodeShared e = .ok (c, []) :=
  decodeShared_payload (g := []) c ⟨hn, h⟩

/-- C07, END. -/
theorem C07_end (content : Bytes) :
    ∃ e, (Body.end_ content).payload = .ok e ∧ decodeEnd e = .ok (content, []) :=
  ⟨content, rfl, rfl⟩

/-- C07, PROP with a plain array: given the class of the property has as many instances as there
are values, the chunk decodes to the same class, name, type and values. -/
theorem C07_prop (slack : Bytes → Nat) (groups : Map (BitVec 32) (Nat × InstChunk)) (i : Nat)
    (inst : InstChunk) (classID : BitVec 32) (name : Bytes) (t : TypeID) (vs : List Val)
    (hg : groups.get? classID = some (i, inst)) (hn : name.length < 2 ^ 32) (ht : t ≠ .optional)
    (hne : vs ≠ []) (hl : vs.length = inst.ids.length) (h : ∀ v ∈ vs, v.type = t ∧ v.lenOk) :
    ∃ e, (Body.prop ⟨classID, name, some (.plain t vs)⟩).payload = .ok e ∧ ∃ vs',
      decodeProp slack groups e = .ok (⟨classID, name, some (.plain t vs')⟩, []) ∧
      List.Forall₂ SameStored vs vs' := by
  obtain ⟨e, h1, h2⟩ := decodeProp_payload slack groups ⟨classID, name, some (.plain t vs)⟩
    ⟨hn, i, inst, hg, by intro a ha; cases ha; exact ⟨ht, hne, hl, h⟩⟩
  exact ⟨e, h1, _, h2, forall₂_canon vs⟩

/-- C07, PROP with optional values of a type that is not interleaved (for the others see
`C06_interleaved_fails`). -/
theorem C07_prop_optional (slack : Bytes → Nat) (groups : Map (BitVec 32) (Nat × InstChunk))
    (i : Nat) (inst : InstChunk) (classID : BitVec 32) (name : Bytes) (t : TypeID) (vs : List Val)
    (present : List Bool)
    (hg : groups.get? classID = some (i, inst)) (hn : name.length < 2 ^ 32) (ht : t ≠ .optional)
    (hi : interleaved t = false)
    (hne : vs ≠ []) (hl : vs.length = inst.ids.length) (hp : present.length = vs.length)
    (h : ∀ v ∈ vs, v.type = t ∧ v.lenOk) :
    ∃ e, (Body.prop ⟨classID, name, some (.optional (.plain t vs) present)⟩).payload = .ok e ∧ ∃ vs',
      decodeProp slack groups e =
        .ok (⟨classID, name, some (.optional (.plain t vs') present)⟩, []) ∧
      List.Forall₂ SameStored vs vs' := by
  obtain ⟨e, h1, h2⟩ := decodeProp_payload slack groups
    ⟨classID, name, some (.optional (.plain t vs) present)⟩
    ⟨hn, i, inst, hg, by intro a ha; cases ha; exact ⟨ht, hi, hne, hl, hp.trans hl, h⟩⟩
  exact ⟨e, h1, _, h2, forall₂_canon vs⟩

/-- C07, PROP without an array. -/
theorem C07_prop_empty (slack : Bytes → Nat) (groups : Map (BitVec 32) (Nat × InstChunk)) (i : Nat)
    (inst : InstChunk) (classID : BitVec 32) (name : Bytes)
    (hg : groups.get? classID = some (i, inst)) (hn : name.length < 2 ^ 32) :
    ∃ e, (Body.prop ⟨classID, name, none⟩).payload = .ok e ∧
      decodeProp slack groups e = .ok (⟨classID, name, none⟩, []) :=
  decodeProp_payload slack groups ⟨classID, name, none⟩
    ⟨hn, i, inst, hg, by intro a ha; cases ha⟩

/-- A concrete instance chunk and property chunk meeting the hypotheses. -/
def exInst : InstChunk := ⟨0, str "Part", [0, 2], true, [1, 0]⟩
example : ∃ e, (Body.inst exInst).payload = .ok e ∧ decodeInst e = .ok (exInst, []) := by
  obtain ⟨e, h1, c', h2, h3, h4, h5, h6, h7⟩ := C07_inst exInst (by decide) (by decide) (by decide)
  refine ⟨e, h1, ?_⟩
  rw [h2]; cases c'; simp_all [exInst]
example : ∃ e, (Body.prop ⟨0, str "Value", some (.plain .int [.int 5, .int (-1)])⟩).payload = .ok e ∧
    ∃ vs', decodeProp (fun _ => 0) [(0, (0, exInst))] e =
      .ok (⟨0, str "Value", some (.plain .int vs')⟩, []) ∧
      List.Forall₂ SameStored [.int 5, .int (-1)] vs' :=
  C07_prop _ _ 0 exInst 0 _ .int _ rfl (by decide) (by decide) (by decide) rfl
    (by simp [Val.type, Val.lenOk])
example : ∃ e, (Body.parent ⟨0, [0, 1, 2], [-1, 0, 0]⟩).payload = .ok e ∧
    decodeParent e = .ok (⟨0, [0, 1, 2], [-1, 0, 0]⟩, []) := C07_parent _ rfl (by decide)

/-! ## C58 -/

/-- C58: the text of a signature has four bytes: each byte of the signature in file order if it is
printable, a period otherwise. -/
theorem C58_text (s : BitVec 32) :
    (sigString s).length = 4 ∧
    ∀ (i : Nat) (b : Byte), (le32 s)[i]? = some b → (sigString s)[i]? = some (if isPrintByte b then b else 0x2E#8) := by
  refine ⟨by simp [sigString, le32_length], fun i b h => by simp [sigString, h]⟩

/-- C58: signatures made of printable bytes have different texts. -/
theorem C58_printable_injective (s t : BitVec 32) (hs : ∀ b ∈ le32 s, isPrintByte b = true)
    (ht : ∀ b ∈ le32 t, isPrintByte b = true) (h : sigString s = sigString t) : s = t := by
  have key : ∀ s : BitVec 32, (∀ b ∈ le32 s, isPrintByte b = true) → sigString s = le32 s := by
    intro s hs
    unfold sigString
    conv => rhs; rw [← List.map_id (le32 s)]
    apply List.map_congr_left
    intro b hb; simp [hs b hb]
  rw [key s hs, key t ht] at h
  have h1 := readLe32_le32 s []
  rw [h, readLe32_le32] at h1
  simp at h1
  exact h1.symm

/-- C58: the signatures of the format have pairwise different texts. -/
theorem C58_known (s t : BitVec 32) (hs : validChunk s = true) (ht : validChunk t = true)
    (h : sigString s = sigString t) : s = t := by
  simp only [validChunk, Bool.or_eq_true, beq_iff_eq] at hs ht
  rcases hs with ((((rfl | rfl) | rfl) | rfl) | rfl) | rfl <;>
    rcases ht with ((((rfl | rfl) | rfl) | rfl) | rfl) | rfl <;>
    first | rfl | (exfalso; revert h; decide)

/-- C58: in general the text loses information. -/
theorem C58_lossy : sigString 0#32 = sigString 1#32 ∧ (0#32 : BitVec 32) ≠ 1#32 := by decide

example : sigString sigINST = str "INST" ∧ sigString sigEND = str "END." := by decide

end Props
