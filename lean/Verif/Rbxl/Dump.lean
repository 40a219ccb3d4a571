import Verif.Go.Quote
import Verif.Go.Shortest
import Verif.Go.Strconv
import Verif.Go.Writer
import Verif.Rbxl.Model
import Verif.Rbxl.Partial
import Verif.Rbxfile.Names
/-!
# Dumping the binary format (rbxl/dump.go, the `Dump` methods of rbxl/values.go and rbxl/arrays.go)

The text that is written, as a byte string: the concatenation of what is given to the writer.
-/
namespace Rbxl
open Go

/-- What the dump uses of the Go library that is not modelled. -/
structure DumpText where
  /-- `unicode.IsPrint` -/
  isPrint : Nat → Bool
  /-- `unicode.IsGraphic` -/
  isGraphic : Nat → Bool
  /-- `time.Unix(int64(t)+epoch, 0).UTC().Format(time.RFC3339)` -/
  time : BitVec 32 → Bytes
  /-- `Offset` and `Cause` of an errored chunk with this signature and payload, after chunks that made these groups, as they are
  shown (rbxl/dump.go:194, 196): the number of bytes that were read of a payload, and the messages of errors are not modelled. -/
  fault : Map (BitVec 32) (Nat × InstChunk) → BitVec 32 → Bytes → Bytes × Bytes
  /-- What the positions of CFrames are read from after the deinterleaving has mixed in bytes from beyond the end of the payload
  (`framePositions`). -/
  spill : Nat → Bytes → Bytes

variable (T : DumpText)

/-- `dumpNewline` (rbxl/dump.go:208-213). -/
def newline (indent : Nat) : Bytes := 10#8 :: List.replicate indent 9#8

/-- The two spaces or the space after a byte, `left` being the number of places left in the row (rbxl/dump.go:258-262). -/
def cellSep (left : Nat) : Bytes := if left = 8 then str "  " else str " "

/-- The loop over the places of a row (rbxl/dump.go:244-263), which starts at a multiple of 16: `left` places are left, and the
bytes of the row that are left; `pad` is `!(len(b) < width)`. -/
def cells (pad : Bool) : Nat → Bytes → Bytes
  | 0, _ => []
  | left + 1, b :: bs => hexDigits 2 b.toNat ++ cellSep left ++ cells pad left bs
  | left + 1, [] => if pad then str "  " ++ cellSep left ++ cells pad left [] else []

/-- A byte in the column on the right (rbxl/dump.go:270-274). -/
def asciiByte (b : Byte) : Byte := if 32 ≤ b.toNat ∧ b.toNat ≤ 126 then b else 46#8

/-- The rows (rbxl/dump.go:241-277). The first argument bounds the number of rows. -/
def rows (pad : Bool) (indent : Nat) : Nat → Bytes → Bytes
  | 0, _ => []
  | _, [] => []
  | fuel + 1, b => newline (indent + 1) ++ (str "| " ++ (cells pad 16 (b.take 16) ++ (str "|" ++ ((b.take 16).map asciiByte ++
      (str "|" ++ rows pad indent fuel (b.drop 16))))))

/-- `dumpBytes` (rbxl/dump.go:238-279). -/
def dumpBytes (indent : Nat) (b : Bytes) : Bytes :=
  str "(len:" ++ (formatUint b.length ++ (str ")" ++ rows (decide (16 ≤ b.length)) indent b.length b))

/-- `dumpString` (rbxl/dump.go:227-236). -/
def dumpString (indent : Nat) (s : Bytes) : Bytes :=
  if (runes s).all T.isGraphic then str "(len:" ++ (formatUint s.length ++ (str ") " ++ quote T.isPrint s))
  else dumpBytes indent s

/-- A digit in base 16, upper case. -/
def upperHex (n : Nat) : Byte := BitVec.ofNat 8 (if n < 10 then 48 + n else 55 + n)

/-- Two digits in base 16, as with `%02X`. -/
def upperHex2 (b : Byte) : Bytes := [upperHex (b.toNat / 16), upperHex (b.toNat % 16)]

/-- `dumpSig` (rbxl/dump.go:215-225). `isPrintByte` is `unicode.IsPrint` for bytes. -/
def dumpSig (s : BitVec 32) : Bytes :=
  sigString s ++ (str " (" ++ (List.intercalate (str " ") ((le32 s).map upperHex2) ++ str ")"))

/-- `typeID.String` (rbxl/values.go:220-287). -/
def TypeID.name : TypeID → Bytes
  | .string => str "String" | .bool => str "Bool" | .int => str "Int" | .float => str "Float" | .double => str "Double"
  | .udim => str "UDim" | .udim2 => str "UDim2" | .ray => str "Ray" | .faces => str "Faces" | .axes => str "Axes"
  | .brickColor => str "BrickColor" | .color3 => str "Color3" | .vector2 => str "Vector2" | .vector3 => str "Vector3"
  | .vector2int16 => str "Vector2int16" | .cframe => str "CFrame" | .cframeQuat => str "CFrameQuat" | .token => str "Token"
  | .reference => str "Reference" | .vector3int16 => str "Vector3int16" | .numberSequence => str "NumberSequence"
  | .colorSequence => str "ColorSequence" | .numberRange => str "NumberRange" | .rect => str "Rect"
  | .physicalProperties => str "PhysicalProperties" | .color3uint8 => str "Color3uint8" | .int64 => str "Int64"
  | .sharedString => str "SharedString" | .optional => str "Optional" | .uniqueId => str "UniqueId" | .font => str "Font"

/-! ## Values -/

/-- `strconv.AppendBool`. -/
def boolText (b : Bool) : Bytes := if b then str "true" else str "false"

/-- A line that starts with a label. -/
def field (indent : Nat) (label : String) (text : Bytes) : Bytes := newline (indent + 1) ++ (str label ++ (str ": " ++ text))

/-- Lines with labels between braces. -/
def block (indent : Nat) (fs : List (String × Bytes)) : Bytes :=
  str "{" ++ ((fs.flatMap fun f => field indent f.1 f.2) ++ (newline indent ++ str "}"))

/-- `valueVector3.Dump` (rbxl/values.go:1307-1324). -/
def Vec3.dump (indent : Nat) (v : Vec3) : Bytes :=
  block indent [("X", short32 layoutShortG v.x), ("Y", short32 layoutShortG v.y), ("Z", short32 layoutShortG v.z)]

/-- `valueVector2.Dump` (rbxl/values.go:1259-1272). -/
def dumpVector2 (indent : Nat) (x y : F32) : Bytes := block indent [("X", short32 layoutShortG x), ("Y", short32 layoutShortG y)]

/-- `valueColor3.Dump` (rbxl/values.go:1209-1226). -/
def dumpColor3 (indent : Nat) (r g b : F32) : Bytes :=
  block indent [("R", short32 layoutShortG r), ("G", short32 layoutShortG g), ("B", short32 layoutShortG b)]

/-- The rotation of a CFrame (rbxl/values.go:1431-1440). -/
def Rot.dump (indent : Nat) (r : Rot) : Bytes :=
  newline (indent + 1) ++ (str "Rotation: {" ++ (([r.m0, r.m1, r.m2, r.m3, r.m4, r.m5, r.m6, r.m7, r.m8].flatMap fun f =>
    newline (indent + 2) ++ short32 layoutShortG f) ++ (newline (indent + 1) ++ str "}")))

/-- `valueNumberSequenceKeypoint.Dump` (rbxl/values.go:1720-1737). -/
def NSK.dump (indent : Nat) (k : NSK) : Bytes :=
  block indent [("Time", short32 layoutShortG k.time), ("Value", short32 layoutShortG k.value), ("Envelope", short32 layoutShortG k.envelope)]

/-- `valueColorSequenceKeypoint.Dump` (rbxl/values.go:1800-1817). -/
def CSK.dump (indent : Nat) (k : CSK) : Bytes :=
  block indent [("Time", short32 layoutShortG k.time), ("Value", dumpColor3 (indent + 1) k.r k.g k.b), ("Envelope", short32 layoutShortG k.envelope)]

/-- Elements with their numbers, each on new lines; the first has the number `i`. -/
def numbered (indent : Nat) : Nat → List Bytes → Bytes
  | _, [] => []
  | i, t :: ts => newline indent ++ (formatUint i ++ (str ": " ++ (t ++ numbered indent (i + 1) ts)))

/-- The common form of `valueNumberSequence.Dump` and `valueColorSequence.Dump` (rbxl/values.go:1777-1788, 1863-1874). -/
def dumpSequence (indent : Nat) (ts : List Bytes) : Bytes :=
  str "(count:" ++ (formatUint ts.length ++ (str ") {" ++ (numbered (indent + 1) 0 ts ++ str "}")))

/-- The lines of PhysicalProperties that are written for custom physics (rbxl/values.go:2043-2063). -/
def physFields (indent : Nat) (custom : Byte) (density friction elasticity frictionWeight elasticityWeight : F32) : Bytes :=
  if custom = 0#8 then [] else
    field indent "Density" (short32 layoutShortG density) ++ (field indent "Friction" (short32 layoutShortG friction) ++
      (field indent "Elasticity" (short32 layoutShortG elasticity) ++ (field indent "FrictionWeight" (short32 layoutShortG frictionWeight) ++
        field indent "ElasticityWeight" (short32 layoutShortG elasticityWeight))))

/-- A name and a number: `Weight` and `Style` of a font (rbxl/values.go:2315-2326). -/
def named (name : Bytes) (n : Nat) : Bytes := name ++ (str " (" ++ (formatUint n ++ str ")"))

/-- `value.Dump` (rbxl/values.go:725-2334); in the order of the source: 725-727, 759-765, 793-795, 823-825, 853-855, 889-901,
942-962, 1009-1038, 1068-1097, 1127-1144, 1172-1174, 1209-1226, 1259-1272, 1307-1324, 1357-1370, 1424-1448, 1552-1580,
1626-1628, 1656-1658, 1693-1710, 1777-1788, 1863-1874, 1907-1920, 1953-1966, 2037-2067, 2099-2116, 2144-2146, 2174-2176,
2217-2244, 2307-2334. -/
def Val.dump (indent : Nat) : Val → Bytes
  | .string s => dumpString T indent s
  | .bool b => boolText b
  | .int n => formatInt n.toInt
  | .float f => short32 layoutShortG f
  | .double f => short64 layoutShortG f
  | .udim scale offset => block indent [("Scale", short32 layoutShortG scale), ("Offset", formatInt offset.toInt)]
  | .udim2 scaleX scaleY offsetX offsetY => block indent [("X.Scale", short32 layoutShortG scaleX), ("Y.Scale", formatInt offsetX.toInt),
      ("X.Offset", short32 layoutShortG scaleY), ("Y.Offset", formatInt offsetY.toInt)]
  | .ray ox oy oz dx dy dz => block indent [("Origin.X", short32 layoutShortG ox), ("Origin.Y", short32 layoutShortG oy), ("Origin.Z", short32 layoutShortG oz),
      ("Direction.X", short32 layoutShortG dx), ("Direction.Y", short32 layoutShortG dy), ("Direction.Z", short32 layoutShortG dz)]
  | .faces right top back left bottom front => block indent [("Right", boolText right), ("Top", boolText top),
      ("Back", boolText back), ("Left", boolText left), ("Bottom", boolText bottom), ("Front", boolText front)]
  | .axes x y z => block indent [("X", boolText x), ("Y", boolText y), ("Z", boolText z)]
  | .brickColor n => formatUint n.toNat
  | .color3 r g b => dumpColor3 indent r g b
  | .vector2 x y => dumpVector2 indent x y
  | .vector3 v => v.dump indent
  | .vector2int16 x y => block indent [("X", formatInt x.toInt), ("Y", formatInt y.toInt)]
  | .cframe special r p => str "{" ++ (field indent "ID" (formatUint special.toNat) ++
      ((if special = 0#8 then r.dump indent else []) ++ (field indent "Position" (p.dump (indent + 1)) ++
        (newline indent ++ str "}"))))
  | .cframeQuat special x y z w p => str "{" ++ (field indent "ID" (formatUint special.toNat) ++ (field indent "QX" (short32 layoutShortG x) ++
      (field indent "QY" (short32 layoutShortG y) ++ (field indent "QZ" (short32 layoutShortG z) ++ (field indent "QW" (short32 layoutShortG w) ++
        (str "Position: " ++ (p.dump (indent + 1) ++ (newline indent ++ str "}"))))))))
  | .token n => formatUint n.toNat
  | .reference n => formatInt n.toInt
  | .vector3int16 x y z => block indent [("X", formatInt x.toInt), ("Y", formatInt y.toInt), ("Z", formatInt z.toInt)]
  | .numberSequence ks => dumpSequence indent (ks.map fun k => k.dump (indent + 1))
  | .colorSequence ks => dumpSequence indent (ks.map fun k => k.dump (indent + 1))
  | .numberRange min max => block indent [("Min", short32 layoutShortG min), ("Max", short32 layoutShortG max)]
  | .rect minX minY maxX maxY => block indent [("Min", dumpVector2 (indent + 1) minX minY), ("Max", dumpVector2 (indent + 1) maxX maxY)]
  | .physicalProperties custom density friction elasticity frictionWeight elasticityWeight =>
      str "{" ++ (field indent "CustomPhysics" (formatUint custom.toNat) ++
        (physFields indent custom density friction elasticity frictionWeight elasticityWeight ++ (newline indent ++ str "}")))
  | .color3uint8 r g b => block indent [("R", formatUint r.toNat), ("G", formatUint g.toNat), ("B", formatUint b.toNat)]
  | .int64 n => formatInt n.toInt
  | .sharedString n => formatUint n.toNat
  | .uniqueId random time index => block indent [("(String)", Rbxfile.uniqueIdString random time index),
      ("Random", formatInt random.toInt), ("Time", T.time time), ("Index", formatUint index.toNat)]
  | .font family weight style cachedFaceId => block indent [("Family", dumpString T (indent + 1) family),
      ("Weight", named (Rbxfile.fontWeightString weight) weight.toNat),
      ("Style", named (Rbxfile.fontStyleString style) style.toNat), ("CachedFaceId", dumpString T (indent + 1) cachedFaceId)]

/-! ## Chunks -/

/-- The type of an array, as in `(type:%d) %s` (rbxl/dump.go:143, rbxl/arrays.go:1476). -/
def typeText (t : TypeID) : Bytes := str "(type:" ++ (formatUint t.toByte.toNat ++ (str ") " ++ t.name))

/-- An element of an optional array that has a value (rbxl/arrays.go:1485-1492). -/
def optText (indent : Nat) (present : Bool) (v : Val) : Bytes :=
  if present then v.dump T indent else str "none (" ++ (v.dump T indent ++ str ")")

/-- The elements of an optional array from the `i`-th (rbxl/arrays.go:1478-1493): the first number is how many there are.
The element of an array of optionals may be a nil value, whose `Dump` panics. -/
def optTexts (indent : Nat) (values : Arr) (present : List Bool) : Nat → Nat → Res (List Bytes)
  | 0, _ => .ok []
  | n + 1, i =>
    match present[i]? with
    | none => do
      let ts ← optTexts indent values present n (i + 1)
      pure (str "invalid" :: ts)
    | some p =>
      match values.get i with
      | .panic => .panic
      | .err e => .err e
      | .ok none => .panic
      | .ok (some v) => do
        let ts ← optTexts indent values present n (i + 1)
        pure (optText T indent p v :: ts)

/-- The dump of an array: rbxl/dump.go:144-156, and `arrayOptional.Dump` (rbxl/arrays.go:1470-1496). -/
def Arr.dump (indent : Nat) : Arr → Res Bytes
  | .plain _ vs =>
    .ok (str "{" ++ (numbered (indent + 1) 0 (vs.map fun v => v.dump T (indent + 1)) ++ (newline indent ++ str "}")))
  | .optNil _ => .ok (str "none")
  | .optional a present => do
    let ts ← optTexts T (indent + 2) a present a.len 0
    pure (str "(" ++ (typeText a.type ++ (str ") {" ++ (numbered (indent + 2) 0 ts ++ (newline (indent + 1) ++ str "}")))))

/-- The keys and values of a META chunk (rbxl/dump.go:65-76). -/
def metaTexts (indent : Nat) : List (Bytes × Bytes) → Bytes
  | [] => []
  | p :: ps => newline (indent + 1) ++ (str "{" ++ (field (indent + 1) "Key" (dumpString T (indent + 2) p.1) ++
      (field (indent + 1) "Value" (dumpString T (indent + 2) p.2) ++ (newline (indent + 1) ++ (str "}" ++ metaTexts indent ps)))))

/-- A shared string (rbxl/dump.go:84-92). -/
def sharedText (indent : Nat) (p : Bytes × Bytes) : Bytes :=
  block (indent + 2) [("Hash", dumpBytes (indent + 3) p.1), ("Value", dumpBytes (indent + 3) p.2)]

/-- The id of an instance of a service (rbxl/dump.go:108-112). -/
def serviceTexts : List (BitVec 32) → Bytes → List Bytes
  | [], _ => []
  | id :: ids, [] => (formatInt id.toInt ++ str " (invalid)") :: serviceTexts ids []
  | id :: ids, g :: gs => (formatInt id.toInt ++ (str " (" ++ (formatUint g.toNat ++ str ")"))) :: serviceTexts ids gs

/-- A reference of a parent chunk that may be missing (rbxl/dump.go:171-181). -/
def parentText : Option (BitVec 32) → Bytes
  | none => str "invalid"
  | some n => formatInt n.toInt

/-- The links of a parent chunk (rbxl/dump.go:168-182). -/
def linkTexts (indent : Nat) : List (BitVec 32) → List (BitVec 32) → Bytes
  | [], [] => []
  | c :: cs, [] => newline (indent + 2) ++ (parentText (some c) ++ (str " : " ++ (parentText none ++ linkTexts indent cs [])))
  | [], p :: ps => newline (indent + 2) ++ (parentText none ++ (str " : " ++ (parentText (some p) ++ linkTexts indent [] ps)))
  | c :: cs, p :: ps => newline (indent + 2) ++ (parentText (some c) ++ (str " : " ++ (parentText (some p) ++ linkTexts indent cs ps)))

/-- What is written of the class of a property chunk (rbxl/dump.go:131-135). -/
def classText (indent : Nat) : Option InstChunk → Bytes
  | none => []
  | some c => str " (count:" ++ (formatUint c.ids.length ++ (str ", " ++ (dumpString T (indent + 1) c.className ++ str ")")))

/-- The values of a property chunk (rbxl/dump.go:139-157). -/
def propsText (indent : Nat) : Option Arr → Res Bytes
  | none => .ok []
  | some a => do
    let t ← a.dump T (indent + 1)
    pure (newline (indent + 1) ++ (str "Properties: (count:" ++ (formatUint a.len ++ (str ", " ++ (typeText a.type ++ (str ") " ++ t))))))

/-- The content of a chunk between the braces (rbxl/dump.go:61-203); `errored` gives that of an errored chunk. -/
def Body.dump (errored : BitVec 32 → Bytes → Res Bytes) (indent : Nat) (classes : Map (BitVec 32) InstChunk) : Body → Res Bytes
  | .metadata vs => .ok (newline (indent + 1) ++ (str "Count: " ++ (formatUint vs.length ++ metaTexts T indent vs)))
  | .shared c => .ok (newline (indent + 1) ++ (str "Version: " ++ (formatUint c.version.toNat ++ (newline (indent + 1) ++
      (str "Values: (count:" ++ (formatUint c.values.length ++ (str ") {" ++ (numbered (indent + 2) 0 (c.values.map (sharedText indent)) ++
        (newline (indent + 1) ++ str "}")))))))))
  | .inst c => .ok (newline (indent + 1) ++ (str "ClassID: " ++ (formatInt c.classID.toInt ++ (newline (indent + 1) ++ (str "ClassName: " ++
      (dumpString T (indent + 1) c.className ++ (newline (indent + 1) ++ (str "InstanceIDs: (count:" ++ (formatUint c.ids.length ++
        ((if c.isService then str ") (service) {" else str ") {") ++
          (numbered (indent + 2) 0 (if c.isService then serviceTexts c.ids c.getService else c.ids.map fun id => formatInt id.toInt) ++
            (newline (indent + 1) ++ str "}"))))))))))))
  | .prop c => do
    let t ← propsText T indent c.props
    pure (newline (indent + 1) ++ (str "ClassID: " ++ (formatInt c.classID.toInt ++ (classText T indent (classes.get? c.classID) ++
      (newline (indent + 1) ++ (str "PropertyName: " ++ (dumpString T (indent + 1) c.name ++ t)))))))
  | .parent c => .ok (newline (indent + 1) ++ (str "Version: " ++ (formatUint c.version.toNat ++ (newline (indent + 1) ++
      (str "Values (child : parent)" ++ linkTexts indent c.children c.parents)))))
  | .end_ content => .ok (newline (indent + 1) ++ (str "Content: " ++ dumpString T (indent + 1) content))
  | .unknown _ payload =>
    .ok (newline (indent + 1) ++ (str "<unknown chunk signature>\n\t\tBytes: " ++ dumpBytes (indent + 1) payload))
  | .errored sig bytes => errored sig bytes

/-- `dumpChunk` (rbxl/dump.go:50-206) around the content; `label` is the number of the chunk, if it is shown. -/
def frameText (indent : Nat) (label : Bytes) (sig : BitVec 32) (compressed : Bool) (t : Bytes) : Bytes :=
  newline indent ++ (label ++ (dumpSig sig ++ ((if compressed then str " (compressed) {" else str " (uncompressed) {") ++
    (t ++ (newline indent ++ str "}")))))

section
variable (slack : Bytes → Nat)

/-- The content of an errored chunk (rbxl/dump.go:190-202), with the chunk as far as it was decoded, which is not an errored one. -/
def erroredText (indent : Nat) (groups : Map (BitVec 32) (Nat × InstChunk)) (classes : Map (BitVec 32) InstChunk) (compressed : Bool)
    (sig : BitVec 32) (bytes : Bytes) : Res Bytes := do
  let t ← (partBody T.spill slack groups sig bytes).dump T (fun _ _ => .ok []) (indent + 2) classes
  pure (newline (indent + 1) ++ (str "<errored chunk>" ++ (newline (indent + 1) ++ (str "Offset: " ++ ((T.fault groups sig bytes).1 ++
    (newline (indent + 1) ++ (str "Error: " ++ ((T.fault groups sig bytes).2 ++ (newline (indent + 1) ++ (str "Chunk:" ++
      (frameText (indent + 2) [] sig compressed t ++ (newline (indent + 1) ++ (str "Bytes: " ++ dumpBytes (indent + 1) bytes)))))))))))))

/-- `dumpChunk` (rbxl/dump.go:50-206) for the `i`-th chunk. -/
def Chunk.dump (indent i : Nat) (groups : Map (BitVec 32) (Nat × InstChunk)) (classes : Map (BitVec 32) InstChunk) (c : Chunk) :
    Res Bytes := do
  let t ← c.body.dump T (erroredText T slack indent groups classes c.compressed) indent classes
  pure (frameText indent (str "#" ++ (formatUint i ++ str ": ")) c.body.sig c.compressed t)

/-- `classes[chunk.ClassID] = chunk` (rbxl/dump.go:96). -/
def addClass (classes : Map (BitVec 32) InstChunk) : Body → Map (BitVec 32) InstChunk
  | .inst c => classes.set c.classID c
  | _ => classes

/-- The loop over the chunks (rbxl/dump.go:42-44), with the groups as they were when the chunk was decoded. -/
def dumpChunks : Nat → Map (BitVec 32) (Nat × InstChunk) → Map (BitVec 32) InstChunk → List Chunk → Res Bytes
  | _, _, _, [] => .ok []
  | i, groups, classes, c :: cs => do
    let t ← c.dump T slack 1 i groups (addClass classes (c.body.decoded T.spill slack groups))
    let ts ← dumpChunks (i + 1) (addGroup i groups c.body) (addClass classes (c.body.decoded T.spill slack groups)) cs
    pure (t ++ ts)

/-- The text of a model (rbxl/dump.go:38-45). -/
def FormatModel.dump (f : FormatModel) : Res Bytes := do
  let t ← dumpChunks T slack 0 [] [] f.chunks
  pure (str "Version: " ++ (formatUint f.version.toNat ++ (str "\nClasses: " ++ (formatUint f.classCount.toNat ++
    (str "\nInstances: " ++ (formatUint f.instanceCount.toNat ++ (str "\nChunks: {" ++ (t ++ str "\n}"))))))))

end

/-- `Decoder.Dump` (rbxl/dump.go:18-48) for a reader and a writer that are not nil: the warnings, and the text or the error. -/
def dumpFile (lz : LZ4) (slack : Bytes → Nat) (noXML : Bool) (b : Bytes) : List Warn × Res Bytes :=
  match decodeFile lz slack noXML false b with
  | (ws, _, .panic) => (ws, .panic)
  | (ws, _, .err e) => (ws, .err e)
  | (ws, _, .ok (.xml _)) => (ws, .err (.other "unexpected XML format"))
  | (ws, _, .ok (.model f)) => (ws, f.dump T slack)

/-! ## The writer -/

/-- A call of a method of the buffered writer. -/
inductive Put where
  | byte (c : Byte)
  | bytes (p : Bytes)
  | string (p : Bytes)

/-- What is written. -/
def Put.data : Put → Bytes
  | .byte c => [c]
  | .bytes p => p
  | .string p => p

/-- The call. -/
def Put.run {σ ε : Type} (W : Writer σ ε) (b : BufWriter σ ε) : Put → BufWriter σ ε
  | .byte c => b.writeByte W c
  | .bytes p => b.write W p
  | .string p => b.writeString W p

/-- What `Decoder.Dump` does with the writer (rbxl/dump.go:37-48) for a text that is written with the given calls: the calls of the
writer, and the error that is returned. The results of the calls and of `Flush` are ignored. -/
def dumpTo {σ ε : Type} (W : Writer σ ε) (s : σ) (puts : List Put) : List (Spec.Call ε) × Option ε :=
  (((puts.foldl (fun (b : BufWriter σ ε) (p : Put) => p.run W b) (⟨⟨s, []⟩, [], none⟩ : BufWriter σ ε)).flush W).sink.calls, none)

end Rbxl
