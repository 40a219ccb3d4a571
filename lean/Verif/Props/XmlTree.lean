import Verif.Props.Refs
import Verif.Props.Names
import Verif.Props.XmlDocument
import Verif.Rbxlx.XmlKept
/-!
# C41, C42, C44, C45, C47, C48, C49, C65, C66: encoding a tree as XML and decoding it

`Trees h root.instances l` says that the instances of the root are tree-shaped; `l` lists them. Floating point numbers
are written and read by the functions of the Go library (`goFloat`), references are generated from a source of random
bytes (`genOf`).
-/
namespace Props
open Go Rbxfile Rbxlx Spec

variable {ρ : Type} [DecidableEq ρ]

/-- The encoder uses the functions of the Go library for numbers and references. -/
structure GoParams (P : Params) : Prop where
  floats : P.F = goFloat
  random : ∃ rand, (∀ k, (rand k).length = 16) ∧ P.gen = genOf rand

/-- A tree that can be written: tree-shaped; no ProtectedString contains "]]>", see `C42_cdata_fails`; the layout
consists of XML whitespace and includes the root tag. -/
structure XmlWritable (P : Params) (L : Layout) (h : Heap ρ) (root : Root ρ) (l : Map ρ (Inst ρ)) : Prop where
  go : GoParams P
  trees : Trees h root.instances l
  properties : ∀ x ∈ l, x.2.properties.Ok
  cdata : ∀ x ∈ l, ∀ n s, x.2.properties.get? n = some (.protectedString s) → ¬ str "]]>" <:+: s
  pre : ∀ b ∈ L.pre, XmlSpace b
  indent : ∀ b ∈ L.indent, XmlSpace b
  root : L.excludeRoot = false

/-- A tree that can be read back: also, there are no carriage returns in references and the names of properties, and
no collision of the hash of shared strings. -/
structure XmlEncodable (P : Params) (L : Layout) (h : Heap ρ) (root : Root ρ) (l : Map ρ (Inst ρ)) : Prop where
  writable : XmlWritable P L h root l
  metadata : root.metadata.Ok
  references : ∀ p a, h.get? p = some a → 13#8 ∉ a.reference
  names : ∀ x ∈ l, ∀ n v, x.2.properties.get? n = some v → 13#8 ∉ n
  collisions : ∀ s s', UsedShared l s → UsedShared l s' → P.hash s = P.hash s' → s = s'

theorem genOf_no_cr (rand : Nat → Bytes) (h16 : ∀ k, (rand k).length = 16) (k : Nat) : 13#8 ∉ genOf rand k := by
  have aux : ∀ x : Fin 256, ¬ hexAt hexUpper (BitVec.ofFin x >>> 4) = 13#8 ∧
    ¬ hexAt hexUpper (BitVec.ofFin x &&& 0x0F#8) = 13#8 := by decide +kernel
  have key : ∀ u : Bytes, 13#8 ∉ str "RBX" ++ hexDigits hexUpper u := by
    intro u h
    rw [List.mem_append] at h
    rcases h with h | h
    · exact absurd h (by decide)
    · simp only [hexDigits, List.mem_flatMap, List.mem_cons, List.not_mem_nil, or_false] at h
      obtain ⟨x, -, hx⟩ := h
      obtain ⟨h1, h2⟩ := aux x.toFin
      rcases hx with hx | hx
      · exact h1 hx.symm
      · exact h2 hx.symm
  have h := h16 k
  unfold genOf
  generalize rand k = r at *
  match r, h with
  | [b0, b1, b2, b3, b4, b5, b6, b7, b8, b9, b10, b11, b12, b13, b14, b15], _ =>
    have e : generateReference [b0, b1, b2, b3, b4, b5, b6, b7, b8, b9, b10, b11, b12, b13, b14, b15] = str "RBX" ++
        hexDigits hexUpper [b0, b1, b2, b3, b4, b5, (b6 &&& 0x0F#8) ||| 0x40#8, b7, (b8 &&& 0x3F#8) ||| 0x80#8, b9,
        b10, b11, b12, b13, b14, b15] := by
      unfold generateReference generateUUID
      rw [hexLoop_eq _ _ _ (by simp)]
      rfl
    rw [e]
    exact key _

theorem XmlWritable.legible {P : Params} {L : Layout} {h : Heap ρ} {root : Root ρ} {l : Map ρ (Inst ρ)}
    (hw : XmlWritable P L h root l) : Legible P L h root l where
  text := hw.go.floats ▸ goFloat_readable
  forest := hw.trees.1
  properties := hw.properties
  generated k := by obtain ⟨rand, h16, hr⟩ := hw.go.random; rw [hr]; exact genOf_nonempty rand k
  cdata := hw.cdata
  pre := hw.pre
  indent := hw.indent
  root := hw.root

theorem XmlEncodable.to {P : Params} {L : Layout} {h : Heap ρ} {root : Root ρ} {l : Map ρ (Inst ρ)}
    (hw : XmlEncodable P L h root l) : Writable P L h root l where
  text := hw.writable.legible.text
  trees := hw.writable.trees
  metadata := hw.metadata
  properties := hw.writable.properties
  generated k := by
    obtain ⟨rand, h16, hr⟩ := hw.writable.go.random; rw [hr]; exact ⟨genOf_nonempty rand k, genOf_no_cr rand h16 k⟩
  references := hw.references
  names := hw.names
  cdata := hw.writable.cdata
  collisions := hw.collisions
  pre := hw.writable.pre
  indent := hw.writable.indent
  root := hw.writable.root

/-- C65: encoding a tree returns, if the random source does not repeat itself (`Fresh`, as in C29) and every reference
property of the tree leads to an instance. -/
theorem C65_returns (P : Params) (L : Layout) (h : Heap ρ) (root : Root ρ) (l : Map ρ (Inst ρ)) (hg : GoParams P)
    (hf : Fresh P.gen (demand l) P.attempts) (ht : Trees h root.instances l)
    (hrefs : ∀ x ∈ l, ∀ m q, x.2.properties.get? m = some (.reference (some q)) → (h.get? q).isSome) :
    ∃ b h1, encode P L h root = .ok (b, h1) :=
  encode_total L (fun k => by obtain ⟨rand, h16, hr⟩ := hg.random; rw [hr]; exact genOf_nonempty rand k) hf ht.1 hrefs

/-- C65: encoding changes nothing of the instances but references, and gives every instance of the tree one that is
not empty. -/
theorem C65_instances_kept (P : Params) (L : Layout) (h : Heap ρ) (root : Root ρ) (l : Map ρ (Inst ρ))
    (hw : XmlEncodable P L h root l) (b : Bytes) (h1 : Heap ρ) (hb : encode P L h root = .ok (b, h1)) :
    (∀ p a, h.get? p = some a → ∃ r, h1.get? p = some { a with reference := r }) ∧
    ∀ p inst, (p, inst) ∈ l → ∃ r, h1.get? p = some { inst with reference := r } ∧ isEmptyReference r = false := by
  refine ⟨?_, ?_⟩
  · unfold encode codecEncode at hb
    cases hea : encodeAll (encodeInstance P (h.length + 1)) [] 0 root.instances ⟨⟨h, [], 0⟩, []⟩ with
    | panic => simp only [hea] at hb; cases hb
    | err e => simp only [hea] at hb; cases hb
    | ok res =>
      obtain ⟨items, st⟩ := res
      simp only [hea, Res.ok.injEq, Prod.mk.injEq] at hb
      obtain ⟨-, rfl⟩ := hb
      exact (encodeAll_step hw.writable.legible.generated hw.writable.trees.1 hw.writable.properties _ _ _ _ _ _
        (SameBut.refl h) hea).step.heap
  · intro p inst hp
    obtain ⟨h2, root2, -, D⟩ := xml_roundtrip hw.to false hb
    obtain ⟨-, -, r, -, -, h3, h4, -⟩ := D.insts p inst hp
    exact ⟨r, h3, h4⟩

/-- C41: what is written is accepted by the parser, up to the suffix of the layout, and has the root tag "roblox".
Missing: ProtectedStrings that contain "]]>", see `C41_cdata_fails`. -/
theorem C41_accepted_partial (P : Params) (L : Layout) (h : Heap ρ) (root : Root ρ) (l : Map ρ (Inst ρ))
    (hw : XmlWritable P L h root l) (b : Bytes) (h1 : Heap ρ) (hb : encode P L h root = .ok (b, h1)) :
    ∃ doc, readFrom b = .ok (some doc, L.suffix) ∧ doc.head.startName = str "roblox" := by
  obtain ⟨A, B, items, shared, h1, -⟩ := encode_document hw.legible hb
  exact ⟨_, h1, by rw [start_reread]; rfl⟩

/-- The values made of whole numbers and flags. A token is below `2 ^ 31`. -/
def Whole : Value ρ → Prop
  | .int _ | .int64 _ | .bool _ | .vector3int16 .. | .vector2int16 .. | .color3uint8 .. | .faces .. | .axes .. => True
  | .token n => n.toNat < 2 ^ 31
  | _ => False

/-- The same value; it contains no reference. -/
def Same {σ : Type} : Value ρ → Value σ → Prop
  | .int n, w => w = .int n
  | .int64 n, w => w = .int64 n
  | .bool b, w => w = .bool b
  | .token n, w => w = .token n
  | .vector3int16 x y z, w => w = .vector3int16 x y z
  | .vector2int16 x y, w => w = .vector2int16 x y
  | .color3uint8 r g b, w => w = .color3uint8 r g b
  | .faces r t b l bo f, w => w = .faces r t b l bo f
  | .axes x y z, w => w = .axes x y z
  | .uniqueId r t i, w => w = .uniqueId r t i
  | _, _ => False

section
variable (P : Params) (L : Layout) (h : Heap ρ) (root : Root ρ) (l : Map ρ (Inst ρ)) (discard : Bool)
  (hw : XmlEncodable P L h root l) (b : Bytes) (h1 : Heap ρ) (hb : encode P L h root = .ok (b, h1))
include hw hb

/-- C48: decoding an encoded tree succeeds, and there is a one-to-one correspondence `φ` of the instances that
preserves the roots, the children, their order, the class names (up to line ends) and the references of the instances
as they are after encoding (unless referents are excluded). -/
theorem C48_same_tree : ∃ h' root' φ, decode P.F discard b = .ok (h', root') ∧
    Corresp l φ h' ∧ root'.instances.map some = root.instances.map φ ∧
    ∀ p inst, (p, inst) ∈ l → ∃ q inst' r, φ p = some q ∧ h'.get? q = some inst' ∧
      inst'.className = normNewlines inst.className ∧ inst'.children.map some = inst.children.map φ ∧
      inst'.isService = false ∧ h1.get? p = some { inst with reference := r } ∧
      inst'.reference = (if P.excludeReferent then [] else r) := by
  obtain ⟨h2, root2, hd, D⟩ := xml_roundtrip hw.to discard hb
  refine ⟨h2, root2, _, hd, D.corresp, D.roots, ?_⟩
  intro p inst hp
  obtain ⟨q, inst', r, a1, a2, a3, a4, a5, a6, a7, a8, -⟩ := D.insts p inst hp
  exact ⟨q, inst', r, a1, a2, a5, a8, a7, a3, a6⟩

/-- C48: the metadata is decoded, with line ends normalised, if its keys have no carriage returns. -/
theorem C48_metadata (hk : ∀ k v, root.metadata.get? k = some v → 13#8 ∉ k) :
    ∃ h' root', decode P.F discard b = .ok (h', root') ∧ ∀ k, root'.metadata.get? k =
      if P.excludeMetadata then none else (root.metadata.get? k).map normText := by
  obtain ⟨h2, root2, hd, D⟩ := xml_roundtrip hw.to discard hb
  exact ⟨h2, root2, hd, D.metadata hk⟩

/-- C66: with the correspondence of C48, an instance has after decoding exactly the properties it had, with the same
values up to the normalisations listed in `XmlKept`. Missing: the values that are not `XmlSupported`, see
`C44_brickcolor_fails`, `C44_token_fails`, `C45_ray_fails`, `C66_font_fails`, `C66_optional_fails`. -/
theorem C66_values_partial (hr : P.excludeReferent = false)
    (hs : ∀ x ∈ l, ∀ n v, x.2.properties.get? n = some v → XmlSupported v) :
    ∃ h' root' φ, decode P.F discard b = .ok (h', root') ∧ Corresp l φ h' ∧
    ∀ p inst, (p, inst) ∈ l → ∃ q inst', φ p = some q ∧ h'.get? q = some inst' ∧ ∀ n,
      (∀ v, inst.properties.get? n = some v → ∃ w, inst'.properties.get? n = some w ∧ XmlKept φ v w) ∧
      (inst.properties.get? n = none → inst'.properties.get? n = none) := by
  obtain ⟨h2, root2, hd, D⟩ := xml_roundtrip hw.to discard hb
  refine ⟨h2, root2, _, hd, D.corresp, ?_⟩
  intro p inst hp
  obtain ⟨q, inst', r, a1, a2, a3, a4, a5, a6, a7, a8, a9⟩ := D.insts p inst hp
  refine ⟨q, inst', a1, a2, fun n => ⟨fun v hv => ?_, fun hn => ?_⟩⟩
  · obtain ⟨w, w1, w2⟩ := kept_final discard (decodedAs l) v (hs _ hp n v hv)
    refine ⟨w, ?_, w2⟩
    rw [a9, hv, hr, hw.writable.go.floats]
    exact w1
  · rw [a9, hn]; rfl

/-- C42: strings have the same content after decoding, with line ends normalised; binary strings are unchanged. (All
the properties of the tree are decoded, whatever the types of the others.) Missing: "]]>" in a ProtectedString, see
`C42_cdata_fails`; carriage returns are not kept, see `C42_cr_fails`. -/
theorem C42_strings_partial : ∃ h' root' φ, decode P.F discard b = .ok (h', root') ∧ Corresp l φ h' ∧
    ∀ p inst, (p, inst) ∈ l → ∃ q inst', φ p = some q ∧ h'.get? q = some inst' ∧ ∀ n s,
      (inst.properties.get? n = some (.string s) → inst'.properties.get? n = some (.string (normText s))) ∧
      (inst.properties.get? n = some (.protectedString s) →
        inst'.properties.get? n = some (.protectedString (normText s))) ∧
      (inst.properties.get? n = some (.content s) → inst'.properties.get? n = some (.content (normText s))) ∧
      (inst.properties.get? n = some (.binaryString s) → inst'.properties.get? n = some (.binaryString s)) ∧
      (13#8 ∉ s → normText s = s) := by
  obtain ⟨h2, root2, hd, D⟩ := xml_roundtrip hw.to discard hb
  refine ⟨h2, root2, _, hd, D.corresp, ?_⟩
  intro p inst hp
  obtain ⟨q, inst', r, a1, a2, a3, a4, a5, a6, a7, a8, a9⟩ := D.insts p inst hp
  refine ⟨q, inst', a1, a2, fun n s => ⟨fun hv => ?_, fun hv => ?_, fun hv => ?_, fun hv => ?_, normText_of_no_cr⟩⟩
  all_goals rw [a9, hv]; rfl

/-- C44: whole numbers and flags are unchanged after decoding. Missing: a BrickColor, and a token from `2 ^ 31` on: see
`C44_brickcolor_fails` and `C44_token_fails`. -/
theorem C44_integers_partial : ∃ h' root' φ, decode P.F discard b = .ok (h', root') ∧ Corresp l φ h' ∧
    ∀ p inst, (p, inst) ∈ l → ∃ q inst', φ p = some q ∧ h'.get? q = some inst' ∧
      ∀ n v, inst.properties.get? n = some v → Whole v → ∃ w, inst'.properties.get? n = some w ∧ Same v w := by
  obtain ⟨h2, root2, hd, D⟩ := xml_roundtrip hw.to discard hb
  refine ⟨h2, root2, _, hd, D.corresp, ?_⟩
  intro p inst hp
  obtain ⟨q, inst', r, a1, a2, a3, a4, a5, a6, a7, a8, a9⟩ := D.insts p inst hp
  refine ⟨q, inst', a1, a2, fun n v hv hv' => ?_⟩
  rw [a9, hv]
  cases v with
  | token x =>
    have : x.toNat < 2 ^ 31 := hv'
    refine ⟨.token x, ?_, rfl⟩
    show some (Value.token (if x.toNat < 2 ^ 31 then x else 0x7fffffff#32)) = _
    rw [if_pos this]
  | int => exact ⟨_, rfl, rfl⟩
  | int64 => exact ⟨_, rfl, rfl⟩
  | bool => exact ⟨_, rfl, rfl⟩
  | vector3int16 => exact ⟨_, rfl, rfl⟩
  | vector2int16 => exact ⟨_, rfl, rfl⟩
  | color3uint8 => exact ⟨_, rfl, rfl⟩
  | faces => exact ⟨_, rfl, rfl⟩
  | axes => exact ⟨_, rfl, rfl⟩
  | _ => exact absurd hv' id

/-- C59: faces and axes are unchanged after decoding. -/
theorem C59_xml_flags : ∃ h' root' φ, decode P.F discard b = .ok (h', root') ∧ Corresp l φ h' ∧
    ∀ p inst, (p, inst) ∈ l → ∃ q inst', φ p = some q ∧ h'.get? q = some inst' ∧
      (∀ n r t ba le bo f, inst.properties.get? n = some (.faces r t ba le bo f) →
        inst'.properties.get? n = some (.faces r t ba le bo f)) ∧
      (∀ n x y z, inst.properties.get? n = some (.axes x y z) → inst'.properties.get? n = some (.axes x y z)) := by
  obtain ⟨h2, root2, hd, D⟩ := xml_roundtrip hw.to discard hb
  refine ⟨h2, root2, _, hd, D.corresp, ?_⟩
  intro p inst hp
  obtain ⟨q, inst', r, a1, a2, a3, a4, a5, a6, a7, a8, a9⟩ := D.insts p inst hp
  refine ⟨q, inst', a1, a2, fun n r t ba le bo f hv => ?_, fun n x y z hv => ?_⟩
  all_goals rw [a9, hv]; rfl

/-- C35: the XML decoder reads a unique id back. -/
theorem C35_xml : ∃ h' root' φ, decode P.F discard b = .ok (h', root') ∧ Corresp l φ h' ∧
    ∀ p inst, (p, inst) ∈ l → ∃ q inst', φ p = some q ∧ h'.get? q = some inst' ∧
      ∀ n r t i, inst.properties.get? n = some (.uniqueId r t i) →
        inst'.properties.get? n = some (.uniqueId r t i) := by
  obtain ⟨h2, root2, hd, D⟩ := xml_roundtrip hw.to discard hb
  refine ⟨h2, root2, _, hd, D.corresp, ?_⟩
  intro p inst hp
  obtain ⟨q, inst', r, a1, a2, a3, a4, a5, a6, a7, a8, a9⟩ := D.insts p inst hp
  refine ⟨q, inst', a1, a2, fun n r t i hv => ?_⟩
  rw [a9, hv]; rfl

/-- C45: after decoding, each component of a composite value is in its own place: a number of type `float32` is the
same (`SameFloat`), those of a NumberRange are read from six digits. Missing: the direction of a Ray, see
`C45_ray_fails`, and the digits of a NumberRange from the seventh on, see `C45_range_fails`. -/
theorem C45_composites_partial : ∃ h' root' φ, decode P.F discard b = .ok (h', root') ∧ Corresp l φ h' ∧
    ∀ p inst, (p, inst) ∈ l → ∃ q inst', φ p = some q ∧ h'.get? q = some inst' ∧ ∀ n,
      (∀ f, inst.properties.get? n = some (.float f) →
        ∃ f', inst'.properties.get? n = some (.float f') ∧ SameFloat f f') ∧
      (∀ u, inst.properties.get? n = some (.udim u) →
        ∃ u', inst'.properties.get? n = some (.udim u') ∧ SameUDim u u') ∧
      (∀ x y, inst.properties.get? n = some (.udim2 x y) →
        ∃ x' y', inst'.properties.get? n = some (.udim2 x' y') ∧ SameUDim x x' ∧ SameUDim y y') ∧
      (∀ c, inst.properties.get? n = some (.color3 c) → ∃ c', inst'.properties.get? n = some (.color3 c') ∧
        SameFloat c.r c'.r ∧ SameFloat c.g c'.g ∧ SameFloat c.b c'.b) ∧
      (∀ v, inst.properties.get? n = some (.vector2 v) →
        ∃ v', inst'.properties.get? n = some (.vector2 v') ∧ SameVector2 v v') ∧
      (∀ v, inst.properties.get? n = some (.vector3 v) →
        ∃ v', inst'.properties.get? n = some (.vector3 v') ∧ SameVector3 v v') ∧
      (∀ v r, inst.properties.get? n = some (.cframe v r) →
        ∃ v' r', inst'.properties.get? n = some (.cframe v' r') ∧ SameVector3 v v' ∧ SameRotation r r') ∧
      (∀ x y, inst.properties.get? n = some (.rect x y) →
        ∃ x' y', inst'.properties.get? n = some (.rect x' y') ∧ SameVector2 x x' ∧ SameVector2 y y') ∧
      (∀ d f e fw ew, inst.properties.get? n = some (.physicalProperties true d f e fw ew) →
        ∃ d' f' e' fw' ew', inst'.properties.get? n = some (.physicalProperties true d' f' e' fw' ew') ∧
          SameFloat d d' ∧ SameFloat f f' ∧ SameFloat e e' ∧ SameFloat fw fw' ∧ SameFloat ew ew') ∧
      (∀ d f e fw ew, inst.properties.get? n = some (.physicalProperties false d f e fw ew) →
        inst'.properties.get? n = some (.physicalProperties false 0 0 0 0 0)) ∧
      (∀ o d, inst.properties.get? n = some (.ray o d) →
        ∃ o' d', inst'.properties.get? n = some (.ray o' d') ∧ SameVector3 o o' ∧ (o = d → SameVector3 d d')) ∧
      (∀ x y, inst.properties.get? n = some (.numberRange x y) →
        ∃ x' y', inst'.properties.get? n = some (.numberRange x' y') ∧ SixDigits x x' ∧ SixDigits y y') := by
  obtain ⟨h2, root2, hd, D⟩ := xml_roundtrip hw.to discard hb
  refine ⟨h2, root2, _, hd, D.corresp, ?_⟩
  intro p inst hp
  obtain ⟨q, inst', r, a1, a2, a3, a4, a5, a6, a7, a8, a9⟩ := D.insts p inst hp
  rw [hw.writable.go.floats] at a9
  refine ⟨q, inst', a1, a2, fun n => ⟨fun f hv => ?_, fun u hv => ?_, fun x y hv => ?_, fun c hv => ?_, fun v hv => ?_,
    fun v hv => ?_, fun v r hv => ?_, fun x y hv => ?_, fun d f e fw ew hv => ?_, fun d f e fw ew hv => ?_,
    fun o d hv => ?_, fun x y hv => ?_⟩⟩
  all_goals rw [a9, hv]
  · exact ⟨_, rfl, same32 _⟩
  · exact ⟨_, rfl, sameU _⟩
  · exact ⟨_, _, rfl, sameU _, sameU _⟩
  · exact ⟨_, rfl, same32 _, same32 _, same32 _⟩
  · exact ⟨_, rfl, same2 _⟩
  · exact ⟨_, rfl, same3 _⟩
  · exact ⟨_, _, rfl, same3 _, sameM _⟩
  · exact ⟨_, _, rfl, same2 _, same2 _⟩
  · exact ⟨_, _, _, _, _, rfl, same32 _, same32 _, same32 _, same32 _, same32 _⟩
  · rfl
  · exact ⟨_, _, rfl, same3 _, fun e => e ▸ same3 _⟩
  · exact ⟨_, _, rfl, six32 _, six32 _⟩

/-- C47: a reference property leads to the instance corresponding to the one it led to, wherever it is in the tree;
nil stays nil, and a reference out of the tree becomes nil. If referents are excluded, all references become nil. -/
theorem C47_references : ∃ h' root' φ, decode P.F discard b = .ok (h', root') ∧ Corresp l φ h' ∧
    ∀ p inst, (p, inst) ∈ l → ∃ q inst', φ p = some q ∧ h'.get? q = some inst' ∧
      ∀ n target, inst.properties.get? n = some (.reference target) →
        ∃ target', inst'.properties.get? n = some (.reference target') ∧
          (target = none → target' = none) ∧ (P.excludeReferent = true → target' = none) ∧
          (P.excludeReferent = false → ∀ t, target = some t →
            (t ∈ l.map Prod.fst → target'.isSome ∧ target' = φ t) ∧ (t ∉ l.map Prod.fst → target' = none)) := by
  obtain ⟨h2, root2, hd, D⟩ := xml_roundtrip hw.to discard hb
  refine ⟨h2, root2, _, hd, D.corresp, ?_⟩
  intro p inst hp
  obtain ⟨q, inst', r, a1, a2, a3, a4, a5, a6, a7, a8, a9⟩ := D.insts p inst hp
  refine ⟨q, inst', a1, a2, fun n target hv => ?_⟩
  rw [a9, hv]
  cases target with
  | none => exact ⟨none, rfl, fun _ => rfl, fun _ => rfl, fun _ t ht => by cases ht⟩
  | some t =>
    refine ⟨if P.excludeReferent then none else decodedAs l t, rfl, nofun,
      fun e => by rw [e]; rfl, fun e t' ht => ?_⟩
    cases ht
    simp only [e]
    refine ⟨fun ht => ⟨(D.corresp.defined t).2 ht, rfl⟩, fun ht => ?_⟩
    have := mt (D.corresp.defined t).1 ht
    simpa using this

/-- C49: a shared string property has the same content after decoding. -/
theorem C49_preserved : ∃ h' root' φ, decode P.F discard b = .ok (h', root') ∧ Corresp l φ h' ∧
    ∀ p inst, (p, inst) ∈ l → ∃ q inst', φ p = some q ∧ h'.get? q = some inst' ∧
      ∀ n s, inst.properties.get? n = some (.sharedString s) →
        inst'.properties.get? n = some (.sharedString s) := by
  obtain ⟨h2, root2, hd, D⟩ := xml_roundtrip hw.to discard hb
  refine ⟨h2, root2, _, hd, D.corresp, ?_⟩
  intro p inst hp
  obtain ⟨q, inst', r, a1, a2, a3, a4, a5, a6, a7, a8, a9⟩ := D.insts p inst hp
  refine ⟨q, inst', a1, a2, fun n s hv => ?_⟩
  rw [a9, hv]; rfl

/-- C49: in the document there is at most one list of shared strings; its entries are the contents that occur in the
tree, each of them once. -/
theorem C49_written_once : ∃ doc, ∃ ss : List Bytes, readFrom b = .ok (some doc, L.suffix) ∧
    (doc.tags.filter fun t => decide (t.head.startName = str "SharedStrings")).length ≤ 1 ∧
    ((doc.tags.filter fun t => decide (t.head.startName = str "SharedStrings")).flatMap fun t =>
      t.tags.map fun e => b64Decode (getContent e)) = ss.map some ∧
    ss.Nodup ∧ ∀ s, s ∈ ss ↔ UsedShared l s := by
  obtain ⟨A, B, items, shared, hr, hA, hB, hI, hok, hall, honly⟩ := encode_document hw.writable.legible hb
  refine ⟨_, (sharedList P shared).map Prod.snd, hr, ?_⟩
  have hf : ∀ (ts : List Tag) (n : Bytes), n ≠ str "SharedStrings" → (∀ t ∈ ts, t.head.startName = n) →
      (reread ts).filter (fun t => decide (t.head.startName = str "SharedStrings")) = [] := by
    intro ts n hn ht
    rw [List.filter_eq_nil_iff]
    intro t h
    obtain ⟨u, hu, rfl⟩ := mem_reread h
    rw [start_reread, ht u hu]
    simpa using hn
  have hfil : ((rereadOf ⟨rootHead, A ++ B ++ items ++ sharedTags P shared⟩).tags.filter fun t =>
      decide (t.head.startName = str "SharedStrings")) = reread (sharedTags P shared) := by
    rw [tags_reread]
    show (reread (A ++ B ++ items ++ sharedTags P shared)).filter _ = _
    simp only [reread_append, List.filter_append]
    rw [hf A (str "Meta") (by decide) hA, hf B (str "External") (by decide) hB, hf items (str "Item") (by decide) hI]
    rw [sharedTags_eq]
    split
    · rfl
    · rfl
  rw [hfil]
  refine ⟨?_, ?_, ?_, ?_⟩
  · rw [sharedTags_eq]
    split
    · simp [reread]
    · simp [reread]
  · rw [sharedTags_eq]
    split
    · rename_i hn
      have : sharedList P shared = [] := by
        apply List.eq_nil_iff_forall_not_mem.2
        intro x hx
        rw [mem_sharedList, hn] at hx
        cases hx
      rw [this]; rfl
    · simp only [reread, List.flatMap_cons, List.flatMap_nil, List.append_nil, tags_reread]
      show (reread ((sharedList P shared).map sharedTagOf)).map _ = _
      rw [reread_map, List.map_map, List.map_map, List.map_map]
      apply List.map_congr_left
      intro x hx
      exact shared_content x
  · have hn := shared_nodup P hok
    unfold List.Nodup at *
    rw [List.pairwise_map]
    refine hn.imp_of_mem fun {x y} hx hy hne e => hne ?_
    rw [mem_sharedList] at hx hy
    have h1 := (honly _ _ hx).1
    have h2 := (honly _ _ hy).1
    exact Prod.ext (by rw [h1, h2, e]) e
  · intro s
    constructor
    · intro hs
      obtain ⟨x, hx, rfl⟩ := List.mem_map.1 hs
      rw [mem_sharedList] at hx
      exact (honly _ _ hx).2
    · intro hs
      obtain ⟨s', hs'⟩ := Option.isSome_iff_exists.1 (hall s hs)
      have h1 := honly _ _ hs'
      have : s = s' := hw.collisions s s' hs h1.2 h1.1
      subst this
      exact List.mem_map.2 ⟨(P.hash s, s), (mem_sharedList P _).2 hs', rfl⟩

end

end Props
