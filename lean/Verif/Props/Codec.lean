import Verif.Rbxl.CodecLemmas
import Verif.Rbxl.FileLemmas
/-!
# C20: what a successful binary decode guarantees about identifiers

`codecDecode` is `robloxCodec.Decode`, the part of `Decoder.Decode` that turns the chunks of a file
into a tree.  `beforeEnd` is the list of chunks before the END chunk.  An instance of the decoded
tree is identified with the id under which the file declares it, so a pointer of the decoded tree is
an id and the instances created are the keys of the heap.
-/
namespace Props
open Go Rbxfile Rbxl

/-- The INST chunks among a list of chunks, in order. -/
def instChunks (cs : List Chunk) : List InstChunk :=
  cs.filterMap fun c => match c.body with
    | .inst c => some c
    | _ => none

theorem mem_instChunks {cs : List Chunk} {c : InstChunk} :
    c ∈ instChunks cs ↔ ∃ ch ∈ cs, ch.body = .inst c := by
  simp only [instChunks, List.mem_filterMap]
  constructor
  · rintro ⟨ch, hm, h⟩
    refine ⟨ch, hm, ?_⟩
    split at h <;> simp_all
  · rintro ⟨ch, hm, h⟩
    exact ⟨ch, hm, by simp [h]⟩

theorem flatMap_ids (cs : List Chunk) :
    cs.flatMap (fun c => c.body.ids) = (instChunks cs).flatMap (·.ids) := by
  induction cs with
  | nil => rfl
  | cons c cs ih =>
    simp only [instChunks] at ih ⊢
    rw [List.flatMap_cons, ih, List.filterMap_cons]
    cases hb : c.body <;> simp [Body.ids]

/-- A successful decode created exactly the declared instances, each declared once and with an id
between 0 and the instance count of the header (exclusive). In particular a file that repeats an
instance id, or uses one out of range, is rejected. -/
theorem C20_instance_ids {quat : Quat} {f : FormatModel} {ws h root}
    (e : codecDecode quat f = (ws, .ok (h, root))) :
    ((instChunks (beforeEnd f.chunks)).flatMap (·.ids)).Nodup ∧
    (∀ c ∈ instChunks (beforeEnd f.chunks), ∀ id ∈ c.ids,
      0 ≤ id.toInt ∧ id.toInt < f.instanceCount.toNat) ∧
    h.map Prod.fst = (instChunks (beforeEnd f.chunks)).flatMap (·.ids) := by
  obtain ⟨h1, h2, h3, h4⟩ := codecDecode_ok e
  rw [flatMap_ids] at h2
  refine ⟨by rw [← h2]; exact h3, ?_, h2⟩
  intro c hc id hid
  obtain ⟨ch, hm, hb⟩ := mem_instChunks.1 hc
  obtain ⟨j, hj⟩ := List.getElem?_of_mem hm
  have := h1 j ch hj
  rw [hb] at this
  exact this.2.2.1 id hid

theorem pairwise_of_positions {α : Type} (l : List α) (R : α → α → Prop)
    (h : ∀ (i j : Nat) (a b : α), i < j → l[i]? = some a → l[j]? = some b → R a b) : l.Pairwise R := by
  rw [List.pairwise_iff_getElem]
  intro i j hi hj hij
  exact h i j _ _ hij (List.getElem?_eq_getElem hi) (List.getElem?_eq_getElem hj)

/-- A successful decode found each class id declared by at most one INST chunk, and within the
class count of the header; the service markers of a service class are as many as its instances. -/
theorem C20_class_ids {quat : Quat} {f : FormatModel} {ws h root}
    (e : codecDecode quat f = (ws, .ok (h, root))) :
    ((instChunks (beforeEnd f.chunks)).map (·.classID)).Nodup ∧
    ∀ c ∈ instChunks (beforeEnd f.chunks),
      (0 ≤ c.classID.toInt ∧ c.classID.toInt < f.classCount.toNat) ∧
      (c.isService = true → c.getService.length = c.ids.length) := by
  obtain ⟨h1, h2, h3, h4⟩ := codecDecode_ok e
  constructor
  · rw [List.Nodup, List.pairwise_map, instChunks, List.pairwise_filterMap]
    apply pairwise_of_positions
    intro i j a b hij ha hb c hc c' hc'
    have ca := h1 i a ha
    have cb := h1 j b hb
    split at hc <;> simp at hc
    split at hc' <;> simp at hc'
    subst hc; subst hc'
    rename_i ea _ _ eb
    rw [ea] at ca; rw [eb] at cb
    obtain ⟨g, hg⟩ := ca.2.2.2
    obtain ⟨g', hg'⟩ := cb.2.2.2
    intro he
    rw [he, hg'] at hg
    simp at hg
    omega
  · intro c hc
    obtain ⟨ch, hm, hb⟩ := mem_instChunks.1 hc
    obtain ⟨j, hj⟩ := List.getElem?_of_mem hm
    have := h1 j ch hj
    rw [hb] at this
    exact ⟨this.1, this.2.1⟩

/-- A successful decode only met PRNT chunks of version 0, with as many parents as children, whose
children are within the instance count of the header. -/
theorem C20_parent_links {quat : Quat} {f : FormatModel} {ws h root}
    (e : codecDecode quat f = (ws, .ok (h, root))) :
    ∀ ch ∈ beforeEnd f.chunks, ∀ c, ch.body = .parent c →
      c.version = 0#8 ∧ c.parents.length = c.children.length ∧
      ∀ id ∈ c.children, 0 ≤ id.toInt ∧ id.toInt < f.instanceCount.toNat := by
  obtain ⟨h1, h2, h3, h4⟩ := codecDecode_ok e
  intro ch hm c hb
  obtain ⟨j, hj⟩ := List.getElem?_of_mem hm
  have := h1 j ch hj
  rw [hb] at this
  exact this

/-- A successful decode only met PROP chunks whose class id is within the class count of the header,
and whose array (if its type was known) has one value for each instance of the class. -/
theorem C20_property_arrays {quat : Quat} {f : FormatModel} {ws h root}
    (e : codecDecode quat f = (ws, .ok (h, root))) :
    ∀ ch ∈ beforeEnd f.chunks, ∀ c, ch.body = .prop c →
      (0 ≤ c.classID.toInt ∧ c.classID.toInt < f.classCount.toNat) ∧
      ∀ pos inst a, f.groupLookup.get? c.classID = some (pos, inst) → c.props = some a →
        a.len = inst.ids.length := by
  obtain ⟨h1, h2, h3, h4⟩ := codecDecode_ok e
  intro ch hm c hb
  obtain ⟨j, hj⟩ := List.getElem?_of_mem hm
  have := h1 j ch hj
  rw [hb] at this
  exact this

/-- A successful decode has no dangling pointer: every root, child and Reference value of the
decoded tree is one of the declared instances. -/
theorem C20_no_dangling {quat : Quat} {f : FormatModel} {ws h root}
    (e : codecDecode quat f = (ws, .ok (h, root))) :
    (∀ r ∈ root.instances, ∃ i, h.get? r = some i) ∧
    ∀ id inst, h.get? id = some inst →
      (∀ c ∈ inst.children, ∃ i, h.get? c = some i) ∧
      ∀ p ∈ inst.properties, ∀ r ∈ p.2.refs, ∃ i, h.get? r = some i := by
  obtain ⟨h1, h2, h3, h4⟩ := codecDecode_ok e
  have key : ∀ r, r ∈ h.map Prod.fst → ∃ i, h.get? r = some i := fun r hr =>
    Option.isSome_iff_exists.1 (Map.get?_isSome.2 hr)
  refine ⟨fun r hr => key r (h4.roots r hr), ?_⟩
  intro id inst hg
  have hm := Map.mem_of_get? hg
  exact ⟨fun c hc => key c (h4.children _ hm c hc), fun p hp r hr => key r (h4.refs _ hm p hp r hr)⟩

/-! A file that is accepted, and rejected when an id is repeated or out of range. -/

/-- A model with one class of two instances, the second a child of the first, with a property
pointing to the first. -/
def codecEx (ids children parents : List (BitVec 32)) : FormatModel where
  version := 0
  classCount := 1
  instanceCount := 2
  chunks := [
    ⟨.inst ⟨0, str "Part", ids, false, []⟩, true⟩,
    ⟨.prop ⟨0, str "Link", some (.plain .reference [.reference 0, .reference (-1)])⟩, true⟩,
    ⟨.parent ⟨0, children, parents⟩, true⟩,
    ⟨.end_ endTag, false⟩]
  trailing := []
  groupLookup := [(0, 0, ⟨0, str "Part", ids, false, []⟩)]

example : codecDecode (fun _ _ _ _ => default) (codecEx [0, 1] [1, 0] [0, -1]) = ([], .ok
    ([(0, { className := str "Part", children := [1], properties := [(str "Link", .reference (some 0))] }),
      (1, { className := str "Part", properties := [(str "Link", .reference none)] })],
     { instances := [0] })) := by rfl
example : (codecDecode (fun _ _ _ _ => default) (codecEx [0, 0] [1, 0] [0, -1])).2.isOk = false := by
  decide
example : (codecDecode (fun _ _ _ _ => default) (codecEx [0, 2] [1, 0] [0, -1])).2.isOk = false := by
  decide
example : (codecDecode (fun _ _ _ _ => default) (codecEx [0, 1] [2, 0] [0, -1])).2.isOk = false := by
  decide

end Props
