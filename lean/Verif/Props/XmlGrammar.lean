import Verif.Rbxlx.GrammarMain
import Verif.Rbxlx.Total
import Verif.Rbxlx.CodecDecode
/-!
# The XML documents that are accepted and what they mean (C79)

`Spec.XmlGrammar` is the grammar: `Node.source` is how a node is written, `Node.Ok` says which nodes can be written, and
`Node.meaning` is the tag it stands for. Nothing in it refers to the parser.
-/
namespace Props
open Go Rbxfile Rbxlx Spec

/-- **C79.** The parser accepts exactly the documents of the grammar: whitespace, a root node, and a suffix. What it
returns is what the root node means, and the suffix. -/
theorem C79_accepts (s : Bytes) (t : Option Tag) (suffix : Bytes) :
    readFrom s = .ok (t, suffix) ↔
      ∃ (lead : Bytes) (n : Node), Blank lead ∧ n.Ok ∧ n.isRoot ∧ s = lead ++ n.source ++ suffix ∧ t = n.meaning :=
  readFrom_iff s t suffix

/-- **C79.** Everything else is an error. -/
theorem C79_rejects (s : Bytes) :
    (readFrom s).isErr ↔
      ¬ ∃ (lead : Bytes) (n : Node) (suffix : Bytes), Blank lead ∧ n.Ok ∧ n.isRoot ∧ s = lead ++ n.source ++ suffix := by
  constructor
  · rintro h ⟨lead, n, suffix, h1, h2, h3, h4⟩
    rw [(C79_accepts s n.meaning suffix).2 ⟨lead, n, h1, h2, h3, h4, rfl⟩] at h
    exact h
  · intro h
    cases hr : readFrom s with
    | ok x =>
      obtain ⟨t, suffix⟩ := x
      obtain ⟨lead, n, h1, h2, h3, h4, -⟩ := (C79_accepts s t suffix).1 hr
      exact absurd ⟨lead, n, suffix, h1, h2, h3, h4⟩ h
    | err e => trivial
    | panic => exact absurd hr (readFrom_good s).1

/-- **C79.** The grammar is not ambiguous: a file is written in one way only as far as its meaning is concerned. -/
theorem C79_unambiguous {l l' : Bytes} {n n' : Node} {x x' : Bytes} (h1 : Blank l) (h2 : n.Ok) (h3 : n.isRoot)
    (h1' : Blank l') (h2' : n'.Ok) (h3' : n'.isRoot) (h : l ++ n.source ++ x = l' ++ n'.source ++ x') :
    n.meaning = n'.meaning ∧ x = x' := by
  have a := (C79_accepts _ n.meaning x).2 ⟨l, n, h1, h2, h3, rfl, rfl⟩
  have b := (C79_accepts _ n'.meaning x').2 ⟨l', n', h1', h2', h3', rfl, rfl⟩
  rw [h, b] at a
  simp only [Res.ok.injEq, Prod.mk.injEq] at a
  exact ⟨a.1.symm, a.2.symm⟩

/-- **C79.** Decoding a document of the grammar is decoding the tag that it means; it is an error for anything else. -/
theorem C79_decode (F : FloatText) (discard : Bool) {lead : Bytes} {n : Node} (suffix : Bytes) (h1 : Blank lead) (h2 : n.Ok)
    (h3 : n.isRoot) :
    decode F discard (lead ++ n.source ++ suffix) = codecDecode F discard n.meaning := by
  unfold decode
  rw [(C79_accepts _ n.meaning suffix).2 ⟨lead, n, h1, h2, h3, rfl, rfl⟩]

/-- **C79.** Character references: in text, a decimal or hexadecimal reference to a number up to 255 is that byte, in any
context in which the text before and after it is text of its own. -/
theorem C79_reference {hex : Bool} {ds : Bytes} (h1 : ds ≠ []) (h2 : ∀ d ∈ ds, IsDigit hex d) (h3 : numberOf hex ds ≤ 255)
    {ps : List Piece} (h4 : PiecesOk 34#8 ps) (s : Bytes) :
    readText .quoted (numberLead hex ++ ds ++ str ";" ++ textSource ps ++ 34#8 :: s) =
      .ok (BitVec.ofNat 8 (numberOf hex ds) :: textMeaning ps, s) := by
  have := readValue_piece (ps := .number hex ds :: ps) ⟨⟨h1, h2, h3⟩, h4⟩ s
  simpa [textSource, textMeaning, Piece.source, Piece.meaning] using this

/-! ### Cases -/

/-- A document with a reference in either case of hexadecimal, line ends, a section, a comment and dropped tags. -/
def oddDoc : Bytes := str ("\n <roblox xmlns=\"a&#x4A;&#x4a;\" version = \"+4\" >\r\n" ++
  "<![CDATA[ <x>\r\n]] ]]> text &amp; &unknown; & &#300;\rend<a b=\"1\"c=\"]]>\" />" ++
  "<!-- & --> <d e>junk>ignored</d> <f \x80 ><g></g></f> <h></other ></roblox >suffix")

/-- It is accepted, with this meaning: so there is a node of the grammar that is written like that. -/
theorem oddDoc_reads : readFrom oddDoc = .ok (some
    ⟨{ startName := str "roblox", endName := str "roblox",
       attr := [(str "xmlns", str "aJJ"), (str "version", str "+4")],
       cdata := some (str " <x>\n]] "), text := str "text & &unknown; & &#300;\nend" },
     [⟨{ startName := str "a", attr := [(str "b", str "1"), (str "c", str "]]>")], empty := true }, []⟩,
      ⟨{ comment := true, text := str " & " }, []⟩,
      ⟨{ startName := str "h", endName := str "other" }, []⟩]⟩, str "suffix") := by
  decide +kernel

example : ∃ (lead : Bytes) (n : Node), Blank lead ∧ n.Ok ∧ n.isRoot ∧ oddDoc = lead ++ n.source ++ str "suffix" := by
  obtain ⟨lead, n, h1, h2, h3, h4, -⟩ := (C79_accepts _ _ _).1 oddDoc_reads
  exact ⟨lead, n, h1, h2, h3, h4⟩

/-- A node of the grammar, given by its parts. -/
def sampleNode : Node :=
  .elem (.named (str "roblox") [⟨str " ", str "version", [], [], [.number true (str "34")]⟩] (.opened []))
    ⟨[], none, [.byte 97#8, .named .lt, .crlf]⟩ (.cons (.comment (str "c")) (str " ") .nil) (str "roblox") []

example : sampleNode.source = str "<roblox version=\"&#x34;\">a&lt;\r\n<!--c--> </roblox>" := by decide +kernel

example : sampleNode.meaning = some (.mk
    { startName := str "roblox", endName := str "roblox", attr := [(str "version", str "4")], text := str "a<\n" }
    [.mk { comment := true, text := str "c" } []]) := by
  decide +kernel

/-- The hypotheses of the theorems hold of it. -/
example : sampleNode.Ok ∧ sampleNode.isRoot := by
  refine ⟨?_, ?_⟩
  · rw [sampleNode, Node.Ok]
    refine ⟨⟨by decide, by unfold TagByte; decide, ?_, ?_, ?_, by simp [Ending.Ok, Blank], by unfold TagByte; decide +kernel⟩,
      rfl, ⟨by simp [Blank], by simp, ⟨?_, ?_, ?_⟩⟩, ?_, ?_, by decide, by unfold TagByte; decide, by simp [Blank]⟩
    · intro t h; exact absurd (List.cons.inj h).1 (by decide)
    · decide +kernel
    · intro a ha
      simp only [List.mem_singleton] at ha
      subst ha
      refine ⟨by unfold Blank; decide, ⟨by decide, by unfold AttrByte TagByte; decide, ?_⟩, by simp [Blank], by simp [Blank],
        ⟨⟨by decide, by decide, by decide⟩, trivial⟩⟩
      intro t h; exact absurd (List.cons.inj h).1 (by decide)
    · exact ⟨⟨by decide, by decide, by decide⟩, trivial, trivial, trivial⟩
    · intro b t h
      have := (List.cons.inj h).1
      rw [← this]; decide
    · decide
    · rw [Nodes.Ok, Node.Ok, Nodes.Ok]
      exact ⟨by decide +kernel, by unfold Blank; decide, trivial⟩
    · intro _ h; cases h
  · refine ⟨rfl, [], str "4", [], by decide +kernel, by simp, str "4", .inl rfl, by decide, by decide, by decide, by decide⟩

/-! ### What the grammar excludes, although it is XML -/

/-- A slash directly after the name of a tag is part of the name, so that the tag is not closed by it. -/
theorem C79_slash : (readFrom (str "<roblox version=\"4\"><a/></roblox>")).isErr ∧
    (readFrom (str "<roblox version=\"4\"><a /></roblox>")).isOk := by decide +kernel

/-- An end tag need not have the name of the start tag. -/
theorem C79_end_name : (readFrom (str "<roblox version=\"4\"><a></b></c>")).isOk := by decide +kernel

/-- An attribute without a value makes the parser drop the element, and go on to the second `>` if it is the last one. -/
theorem C79_no_value : readFrom (str "<roblox version=\"4\"><a b>x></a></roblox>") =
    readFrom (str "<roblox version=\"4\"></roblox>") := by decide +kernel

/-- An ampersand takes everything up to the next blank, `>` or `;` with it, even the next tag. -/
theorem C79_ampersand : (readFrom (str "<roblox version=\"4\"><a>R&D</a></roblox>")).isErr ∧
    (readFrom (str "<roblox version=\"4\"><a>R&D </a></roblox>")).isOk := by decide +kernel

end Props
