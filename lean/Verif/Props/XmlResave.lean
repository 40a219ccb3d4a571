import Verif.Rbxlx.ResaveTwice
import Verif.Props.XmlTreeExamples
import Verif.Props.ConvertXml
/-!
# C92: saving a decoded XML file again
-/
namespace Props
open Go Rbxfile Rbxlx Spec

variable {ρ : Type} [DecidableEq ρ]

/-- A tree of which an XML file keeps everything that matters for saving it again: no carriage returns in the names of
classes and metadata entries, nor behind the leading white space of the values of metadata, the values are `Settled`, references lead to instances of the tree and are written. -/
structure SettledTree (P : Params) (root : Root ρ) (l : Map ρ (Inst ρ)) : Prop where
  classes : ∀ x ∈ l, 13#8 ∉ x.2.className
  values : ∀ x ∈ l, ∀ n v, x.2.properties.get? n = some v → Settled v
  references : ∀ x ∈ l, ∀ n q, x.2.properties.get? n = some (.reference (some q)) →
    P.excludeReferent = false ∧ q ∈ l.map Prod.fst
  metadata : P.excludeMetadata = true ∨ ∀ k v, root.metadata.get? k = some v → 13#8 ∉ k ∧ normText v = v

/-- C92: a file is written, decoded and written again by an encoder with the same settings (but possibly other random
references, another order of maps and another sorting algorithm): if that returns, the files are the same. Missing for the full
property: what `SettledTree` and `XmlEncodable` exclude, see the theorems `C92_*_fails`. -/
theorem C92_same_bytes_partial (P Q : Params) (L : Layout) (h : Heap ρ) (root : Root ρ) (l : Map ρ (Inst ρ)) (discard : Bool)
    (hw : XmlEncodable P L h root l) (hs : SettledTree P root l) (hg : GoParams Q) (hq : SameSettings P Q)
    (b : Bytes) (h1 : Heap ρ) (hb : encode P L h root = .ok (b, h1)) :
    ∃ (h2 : Heap Nat) (root2 : Root Nat), decode goFloat discard b = .ok (h2, root2) ∧
      (∀ b2 h3, encode Q L h2 root2 = .ok (b2, h3) → b2 = b) ∧
      (Fresh Q.gen (demand h2) Q.attempts → ∃ h3, encode Q L h2 root2 = .ok (b, h3)) := by
  have hF : P.F = goFloat := hw.writable.go.floats
  have hQ : ∀ k, isEmptyReference (Q.gen k) = false := by
    obtain ⟨rand, h16, hr⟩ := hg.random
    intro k; rw [hr]; exact genOf_nonempty rand k
  obtain ⟨h2, root2, hd, D⟩ := xml_roundtrip hw.to discard hb
  obtain ⟨ht2, hm2, -⟩ := xml_trees hd
  have main : ∀ b2 h3, encode Q L h2 root2 = .ok (b2, h3) → b2 = b := fun b2 h3 he =>
    resave hw.to (hF ▸ goFloat_stable) hq hQ hs.classes hs.values hs.references hs.metadata hb hd ht2 hm2 he
  refine ⟨h2, root2, hF ▸ hd, main, fun hf => ?_⟩
  obtain ⟨b2, h3, he⟩ := C65_returns Q L h2 root2 h2 hg hf ht2 (by
    intro x hx m q hq
    obtain ⟨p, hp⟩ := (D.corresp.surjective x.1).1 (by rw [Map.get?_of_mem ht2.2 hx]; rfl)
    have hpl := (D.corresp.defined p).1 (by rw [hp]; rfl)
    obtain ⟨⟨p', inst⟩, hi, hpe⟩ := List.mem_map.1 hpl
    simp only at hpe
    subst hpe
    obtain ⟨q2, inst2, r, e1, e2, -, -, -, -, -, -, e5⟩ := D.insts _ inst hi
    rw [hp] at e1; cases e1
    rw [Map.get?_of_mem ht2.2 hx] at e2; cases e2
    rw [e5 m] at hq
    obtain ⟨v, hv, hb⟩ := Option.bind_eq_some_iff.1 hq
    obtain ⟨t, ht⟩ := final_reference hb
    exact (D.corresp.surjective q).2 ⟨t, ht⟩)
  exact ⟨h3, main b2 h3 he ▸ he⟩

/-- C92: from the second time on, whatever the tree, saving again changes nothing: a file is written, decoded, written again,
decoded and written once more, by encoders with the same settings; the last two files are the same. Missing for the full
property: what `XmlEncodable` excludes. -/
theorem C92_settles_partial (P Q Q' : Params) (L : Layout) (h : Heap ρ) (root : Root ρ) (l : Map ρ (Inst ρ)) (discard : Bool)
    (hw : XmlEncodable P L h root l) (hg : GoParams Q) (hq : SameSettings P Q) (hg' : GoParams Q') (hq' : SameSettings Q Q')
    (b : Bytes) (h1 : Heap ρ) (hb : encode P L h root = .ok (b, h1)) :
    ∃ (h2 : Heap Nat) (root2 : Root Nat), decode goFloat discard b = .ok (h2, root2) ∧
      ∀ (b2 : Bytes) (h3 : Heap Nat), encode Q L h2 root2 = .ok (b2, h3) →
        ∃ (h4 : Heap Nat) (root4 : Root Nat), decode goFloat discard b2 = .ok (h4, root4) ∧
          (∀ b4 h5, encode Q' L h4 root4 = .ok (b4, h5) → b4 = b2) ∧
          (Fresh Q'.gen (demand h4) Q'.attempts → ∃ h5, encode Q' L h4 root4 = .ok (b2, h5)) := by
  have hF : P.F = goFloat := hw.writable.go.floats
  have hQ : ∀ k, isEmptyReference (Q.gen k) = false ∧ 13#8 ∉ Q.gen k := by
    obtain ⟨rand, h16, hr⟩ := hg.random
    intro k; rw [hr]; exact ⟨genOf_nonempty rand k, genOf_no_cr rand h16 k⟩
  obtain ⟨h2, root2, hd, D⟩ := xml_roundtrip hw.to discard hb
  obtain ⟨ht2, hm2, -⟩ := xml_trees hd
  have W := D.writable hw.to hq hQ hb hd ht2 hm2
  obtain ⟨s1, s2, s3, s4⟩ := D.settled hF ht2
  refine ⟨h2, root2, hF ▸ hd, fun b2 h3 he => ?_⟩
  refine C92_same_bytes_partial Q Q' L h2 root2 h2 discard
    ⟨⟨hg, W.trees, W.properties, W.cdata, W.pre, W.indent, W.root⟩, W.metadata, W.references, W.names, W.collisions⟩
    ⟨s1, s2, fun x hx n q hv => ?_, .inr s4⟩ hg' hq' b2 h3 he
  rw [hq.excludeReferent]
  exact s3 x hx n q hv

/-- C92: the numbers: every `float32`, read from its text of nine or six digits, is written as the same text, whether or not it
is the same number; so is every `float64` with nine digits, except one and its negation; and that one is read from no number's
text. -/
theorem C92_numbers :
    (∀ f : F32, goFloat.format32 9 (back32 goFloat 9 f) = goFloat.format32 9 f) ∧
    (∀ f : F32, goFloat.format32 6 (back32 goFloat 6 f) = goFloat.format32 6 f) ∧
    (∀ f : F64, f.toNat % 2 ^ 63 ≠ 202402254 → goFloat.format64 9 (back64 goFloat f) = goFloat.format64 9 f) ∧
    ∀ f : F64, (back64 goFloat f).toNat % 2 ^ 63 ≠ 202402254 :=
  ⟨goFloat_stable.nine, goFloat_stable.six, goFloat_stable.double, back64_settled⟩

/-! ## Concrete cases -/

/-- The example tree without the reference to an instance out of the tree. -/
def yHeap : Heap Nat := xHeap.map fun x =>
  (x.1, { x.2 with properties := x.2.properties.map fun y => if y.1 = str "Ref" then (y.1, .reference (some 3)) else y })

/-- The instances of that tree. -/
def yList : Map Nat (Inst Nat) := yHeap.take 4

theorem yValues {Q : Bytes → Value Nat → Prop} (hq : ∀ x ∈ yList, ∀ y ∈ x.2.properties, Q y.1 y.2) :
    ∀ x ∈ yList, ∀ n v, x.2.properties.get? n = some v → Q n v :=
  fun x hx _ _ hv => hq x hx _ (Map.mem_of_get? hv)

theorem yEncodable : XmlEncodable exP {} yHeap xRoot yList where
  writable := {
    go := ⟨rfl, counter, counter_length, rfl⟩
    trees := ⟨.cons (below := (yList.drop 1)) (rest := []) rfl
      (.cons (below := []) (rest := yList.drop 2) rfl .nil
        (.cons (below := yList.drop 3) (rest := []) rfl (.cons (below := []) rfl .nil .nil) .nil))
      .nil, by unfold Map.Ok; decide⟩
    properties := by
      have : ∀ x ∈ yList, (x.2.properties.map Prod.fst).Nodup := by decide +kernel
      exact this
    cdata := by
      have h : ∀ x ∈ yList, ∀ y ∈ x.2.properties, noEnd y.2 = true := by decide +kernel
      intro x hx n s hs
      have := yValues (Q := fun _ v => noEnd v = true) h x hx n _ hs
      show ¬ [93#8, 93#8, 62#8] <:+: s
      rw [← hasCDataEnd_iff]
      simpa [noEnd] using this
    pre := by simp
    indent := by simp
    root := rfl }
  metadata := xEncodable.metadata
  references := by
    have h : ∀ y ∈ yHeap, 13#8 ∉ y.2.reference := by decide +kernel
    exact fun p a ha => h _ (Map.mem_of_get? ha)
  names := yValues (Q := fun n _ => 13#8 ∉ n) (by decide +kernel)
  collisions := by
    have h : ∀ x ∈ yList, ∀ y ∈ x.2.properties, (match y.2 with | .sharedString s => decide (s = [1#8, 2#8]) | _ => true) = true := by
      decide +kernel
    have hu : ∀ s, UsedShared yList s → s = [1#8, 2#8] := by
      rintro s ⟨x, hx, n, hn⟩
      simpa using h x hx _ (Map.mem_of_get? hn)
    exact fun s s' h h' _ => by rw [hu s h, hu s' h']

/-- `Settled` and the condition about references as a decision procedure. -/
def settledB : Value Nat → Bool
  | .string s | .protectedString s | .content s => decide (normText s = s)
  | .brickColor n | .token n => decide (n.toNat < 2 ^ 31)
  | .double f => decide (f.toNat % 2 ^ 63 ≠ 202402254)
  | .optional t (some (.cframe _ _)) => decide (t = .cframe)
  | .font fam w st c => decide (w.toNat < 2 ^ 15 ∧ st.toNat ≤ 1 ∧ normText fam = fam ∧ normText c = c)
  | .reference (some q) => decide (q ∈ yList.map Prod.fst)
  | _ => true

theorem settled_of_settledB {v : Value Nat} (h : settledB v = true) : Settled v := by
  unfold settledB at h
  unfold Settled
  split at h <;> first | exact of_decide_eq_true h | (simp only [reduceCtorEq, imp_self]; try trivial) | (split <;> simp_all)

theorem ySettled : SettledTree exP xRoot yList := by
  have hv : ∀ x ∈ yList, ∀ y ∈ x.2.properties, settledB y.2 = true := by decide +kernel
  have hv' := yValues (Q := fun _ v => settledB v = true) hv
  refine ⟨by decide +kernel, fun x hx n v h => settled_of_settledB (hv' x hx n v h), fun x hx n q h => ⟨rfl, ?_⟩, .inr ?_⟩
  · exact of_decide_eq_true (p := q ∈ yList.map Prod.fst) (hv' x hx n _ h)
  · intro k v h
    have h := Map.mem_of_get? h
    simp only [xRoot, List.mem_cons, List.not_mem_nil, or_false, Prod.mk.injEq] at h
    rcases h with ⟨rfl, rfl⟩ | ⟨rfl, rfl⟩ <;> decide

/-- Another encoder: other random bytes, another order of maps. -/
def exQ : Params := { exP with gen := genOf fun k => counter (k + 1000), it := Iter.id }

/-- The theorem applies: a file with a value of every type is saved again as the same file. -/
example : ∃ b h1, encode exP {} yHeap xRoot = .ok (b, h1) ∧ ∃ (h2 : Heap Nat) (root2 : Root Nat),
    decode goFloat false b = .ok (h2, root2) ∧ ∀ b2 h3, encode exQ {} h2 root2 = .ok (b2, h3) → b2 = b := by
  have h : (match encode exP {} yHeap xRoot with | .ok _ => true | _ => false) = true := by decide +kernel
  cases he : encode exP {} yHeap xRoot with
  | ok x =>
    obtain ⟨h2, root2, hd, hs, -⟩ := C92_same_bytes_partial exP exQ {} yHeap xRoot yList false yEncodable ySettled
      ⟨rfl, _, fun k => counter_length _, rfl⟩ ⟨rfl, rfl, rfl, rfl, rfl⟩ x.1 x.2 he
    exact ⟨x.1, x.2, rfl, h2, root2, hd, hs⟩
  | _ => rw [he] at h; cases h

/-- The files of saving a tree, and of saving what is decoded from it. -/
def savedTwice (P : Params) (h : Heap Nat) (root : Root Nat) : Res (Bytes × Bytes) :=
  encode P {} h root >>= fun x => decode goFloat false x.1 >>= fun y => encode P {} y.1 y.2 >>= fun z => .ok (x.1, z.1)

/-- Whether both files are written, and differ. -/
def differs : Res (Bytes × Bytes) → Bool
  | .ok (b, b2) => decide (b ≠ b2)
  | _ => false

/-- Whether both files are written, and are the same. -/
def agrees : Res (Bytes × Bytes) → Bool
  | .ok (b, b2) => decide (b = b2)
  | _ => false

example : agrees (savedTwice exP (oneHeap (.string (str "a"))) { instances := [0] }) = true := by decide +kernel

/-- C92 fails for a carriage return in a string. -/
theorem C92_cr_fails : differs (savedTwice exP (oneHeap (.string (str "a\rb"))) { instances := [0] }) = true := by decide +kernel

/-- C92 fails for one double: 202402254 times 2 to the -1074 is written as 1e-315, which is read as the double below it, which is
written as 9.99999998e-316. -/
theorem C92_double_fails : differs (savedTwice exP (oneHeap (.double 202402254)) { instances := [0] }) = true := by decide +kernel

/-- C92 fails for numbers of a token and a BrickColor from `2 ^ 31` on. -/
theorem C92_number_fails : differs (savedTwice exP (oneHeap (.token 0x80000000)) { instances := [0] }) = true ∧
    differs (savedTwice exP (oneHeap (.brickColor 0x80000000)) { instances := [0] }) = true := by decide +kernel

/-- C92 fails for a Font with a large weight or an unknown style. -/
theorem C92_font_fails : differs (savedTwice exP (oneHeap (.font (str "x") 40000 1 (str "y"))) { instances := [0] }) = true ∧
    differs (savedTwice exP (oneHeap (.font (str "x") 40 7 (str "y"))) { instances := [0] }) = true := by decide +kernel

/-- C92 fails for a reference to an instance that is not in the tree, and for any reference if referents are excluded. -/
theorem C92_reference_fails :
    differs (savedTwice exP ((7, { className := str "B" }) :: oneHeap (.reference (some 7))) { instances := [0] }) = true ∧
    differs (savedTwice { exP with excludeReferent := true } (oneHeap (.reference (some 0))) { instances := [0] }) = true := by decide +kernel

/-- C92 fails for carriage returns in the name of a class and in metadata. -/
theorem C92_names_fails :
    differs (savedTwice exP [(0, { className := str "A\rB" })] { instances := [0] }) = true ∧
    differs (savedTwice exP [] { instances := [], metadata := [(str "a\rb", [])] }) = true ∧
    differs (savedTwice exP [] { instances := [], metadata := [(str "a", str "x\r")] }) = true := by decide +kernel

/-- C92 fails for an Optional that has a CFrame but another type. -/
theorem C92_optional_fails : differs (savedTwice exP (oneHeap (.optional .int (some (.cframe ⟨1, 2, 3⟩ ⟨1, 2, 3, 4, 5, 6, 7, 8, 9⟩))))
    { instances := [0] }) = true := by decide +kernel

end Props
