import Verif.Rbxl.Layout
import Verif.Props.Framing
import Verif.Props.EncodeExamples
/-!
# C94: the layout of a binary file
-/
namespace Props
open Go Rbxfile Rbxl Spec

variable {ρ : Type} [DecidableEq ρ]

/-- C94: for every tree that is written, the file consists of the chunks that the layout asks for: the counts in the header are
those of the classes and instances, classes have consecutive ids and are ordered by name, every property that is written has a
chunk with a value for every instance of its class, and so on (see `FileLayout`). How chunks and files are stored as bytes is the
subject of C07 and C08. -/
theorem C94_layout (lz : LZ4) (u : Bool) (it : Iter) (srt : Sorter) (hash : Bytes → Bytes) (place : Bool) (h : Heap ρ)
    (root : Root ρ) (l : Map ρ (Inst ρ)) (ht : Trees h root.instances l) (hn : l.length < 2 ^ 31) (b : Bytes)
    (hb : encodeRoot lz u it srt hash place h root = .ok b) :
    ∃ m metas shareds insts props parent, encodeFile lz u m = .ok b ∧
      FileLayout place root.metadata h root.instances l m metas shareds insts props parent := by
  simp only [encodeRoot, Res.bind_eq_ok] at hb
  obtain ⟨f, hf, hb⟩ := hb
  obtain ⟨metas, shareds, insts, props, parent, hl⟩ := codecEncode_layout ht hn hf
  exact ⟨f, metas, shareds, insts, props, parent, hb, hl⟩

/-- C94: the same, of the chunks that are found when the file is read; all of them are compressed if compression is asked for,
except for the last. -/
theorem C94_read (lz : LZ4) (hlz : lz.Lossless) (slack : Bytes → Nat) (noXML u : Bool) (it : Iter) (srt : Sorter)
    (hash : Bytes → Bytes) (place : Bool) (h : Heap ρ) (root : Root ρ) (l : Map ρ (Inst ρ))
    (he : Encodable it srt hash place h root l) (b : Bytes) (hb : encodeRoot lz u it srt hash place h root = .ok b) :
    ∃ stats m metas shareds insts props parent, decodeFile lz slack noXML false b = ([], stats, .ok (.model m)) ∧
      FileLayout place root.metadata h root.instances l m metas shareds insts props parent ∧
      ∃ cs, m.chunks = cs ++ [⟨.end_ (str "</roblox>"), false⟩] ∧ ∀ c ∈ cs, c.compressed = !u := by
  simp only [encodeRoot, Res.bind_eq_ok] at hb
  obtain ⟨f, hf, hb⟩ := hb
  have hfit := he.small f hf
  obtain ⟨names, pairs, props', shared, metas', shareds', e⟩ := encoded it srt hash place h root l he.trees f hf hfit
  obtain ⟨stats, hd, -⟩ := C08_file_roundtrip lz hlz slack noXML u f e.version (e.good he.supported hfit) b hb
  rw [e.noWarns u] at hd
  obtain ⟨metas, shareds, insts, props, parent, hl⟩ := codecEncode_layout he.trees e.small hf
  refine ⟨stats, _, metas, shareds, _, _, parent, hd, layout_back hl u _, ?_⟩
  refine ⟨(metas' ++ shareds' ++ (names.zipIdx.map (fun c => (⟨.inst (clsChunk place (l.map Prod.snd) c), true⟩ : Chunk)) ++
    (props'.map (fun c => (⟨.prop c, true⟩ : Chunk)) ++ [(⟨.parent ⟨0, pairs.map (fun x => refNum l (some x.1)),
      pairs.map (fun x => refNum l x.2)⟩, true⟩ : Chunk)]))).map (Chunk.back u), ?_, ?_⟩
  · show f.chunks.map _ = _
    rw [e.chunks]
    have h0 : Chunk.back u ⟨.end_ endTag, false⟩ = ⟨.end_ (str "</roblox>"), false⟩ := by cases u <;> rfl
    simp only [List.map_append, List.map_cons, List.map_nil, h0, List.append_assoc, List.cons_append, List.nil_append]
  · intro c hc
    obtain ⟨d, hd, rfl⟩ := List.mem_map.1 hc
    have : d.compressed = true := by
      simp only [List.mem_append] at hd
      rcases hd with (hd | hd) | hd | hd | hd
      · rcases e.metas with ⟨h, _⟩ | ⟨vs, _, h⟩ <;> rw [h] at hd
        · cases hd
        · simp only [List.mem_singleton] at hd; rw [hd]
      · rcases e.shareds with ⟨h, _⟩ | h <;> rw [h] at hd
        · cases hd
        · simp only [List.mem_singleton] at hd; rw [hd]
      · obtain ⟨y, _, hy⟩ := List.mem_map.1 hd
        rw [← hy]
      · obtain ⟨y, _, hy⟩ := List.mem_map.1 hd
        rw [← hy]
      · simp only [List.mem_singleton] at hd; rw [hd]
    show (if u then false else d.compressed) = !u
    rw [this]; cases u <;> rfl

section
variable {place : Bool} {entries : Map Bytes Bytes} {h : Heap ρ} {ps : List ρ} {l : Map ρ (Inst ρ)} {m : FormatModel}
  {metas : List (List (Bytes × Bytes))} {shareds : List SharedChunk} {insts : List InstChunk} {props : List PropChunk}
  {parent : ParentChunk}

/-- C94: in a file with this layout every instance is in exactly one of the INST chunks. -/
theorem C94_numbers (hl : FileLayout place entries h ps l m metas shareds insts props parent) :
    ((insts.flatMap InstChunk.ids).map (·.toNat)).Perm (List.range l.length) := by
  rw [List.map_flatMap]
  have hids : ∀ c ∈ insts, c.ids.map (·.toNat) =
      (List.range l.length).filter fun i => decide ((l[i]?).map (fun x => x.2.className) = some c.className) := by
    intro c hc
    obtain ⟨k, hk⟩ := List.mem_iff_getElem?.1 hc
    exact (hl.classes k c hk).ids
  have hnd : insts.Pairwise fun a b => a.className ≠ b.className := hl.sorted.imp fun {a b} hab e => by
    rw [e, bytesLt_irrefl] at hab
    cases hab
  refine (List.perm_ext_iff_of_nodup ?_ List.nodup_range).2 ?_
  · rw [List.flatMap]
    unfold List.Nodup
    rw [List.pairwise_flatten]
    refine ⟨?_, ?_⟩
    · intro x hx
      obtain ⟨c, hc, rfl⟩ := List.mem_map.1 hx
      rw [hids c hc]
      exact List.nodup_range.sublist List.filter_sublist
    · rw [List.pairwise_map]
      refine hnd.imp_of_mem ?_
      intro a b ha hb hab x hx y hy e
      subst e
      rw [hids a ha, List.mem_filter, decide_eq_true_eq] at hx
      rw [hids b hb, List.mem_filter, decide_eq_true_eq] at hy
      exact hab (Option.some.inj (hx.2.symm.trans hy.2))
  · intro i
    rw [List.mem_flatMap, List.mem_range]
    constructor
    · rintro ⟨c, hc, hi⟩
      rw [hids c hc, List.mem_filter, List.mem_range] at hi
      exact hi.1
    · intro hi
      obtain ⟨c, hc, e⟩ := hl.allClasses l[i] (List.getElem_mem hi)
      refine ⟨c, hc, ?_⟩
      rw [hids c hc, List.mem_filter, List.mem_range, decide_eq_true_eq, List.getElem?_eq_getElem hi, e]
      exact ⟨hi, rfl⟩

/-- The instances with their numbers. -/
theorem numbers_unique (ht : l.Ok) {p : ρ} {i : BitVec 32} {k : Nat} {x : ρ × Inst ρ} (hi : Numbered l (some p) i)
    (hk : l[k]? = some x) (hx : x.1 = p) : i.toNat = k := by
  have hi' : (l[i.toNat]?).map Prod.fst = some p := hi
  obtain ⟨y, hy, e⟩ := Option.map_eq_some_iff.1 hi'
  obtain ⟨h1, e1⟩ := List.getElem?_eq_some_iff.1 hy
  obtain ⟨h2, e2⟩ := List.getElem?_eq_some_iff.1 hk
  have hnd : (l.map Prod.fst).Nodup := ht
  refine List.getElem_inj (h₀ := by simpa using h1) (h₁ := by simpa using h2) hnd |>.1 ?_
  simp [e1, e2, e, hx]

/-- C94: in a file with this layout the PRNT chunk has every instance exactly once, and each one before its parent. -/
theorem C94_parents (hl : FileLayout place entries h ps l m metas shareds insts props parent) (ht : Trees h ps l)
    (hn : l.length < 2 ^ 31) :
    (parent.children.map (·.toNat)).Perm (List.range l.length) ∧ parent.parents.length = parent.children.length ∧
    ∀ (i j : Nat) x, parent.parents[i]? = some x → parent.children[j]? = some x → i < j := by
  obtain ⟨-, links, h1, h2, h3⟩ := hl.parents
  obtain ⟨g1, g2⟩ := postOrder_mem ht.1 h1
  have hnd : (links.map Prod.fst).Nodup := g1.nodup_iff.2 ht.2
  refine ⟨?_, h3.length_eq.symm.trans h2.length_eq, ?_⟩
  · refine (List.perm_ext_iff_of_nodup ?_ List.nodup_range).2 ?_
    · clear h3 h1 g1 g2 hl
      generalize parent.children = cs at h2
      induction h2 with
      | nil => exact List.nodup_nil
      | @cons x c links cs hx hr ih =>
        rw [List.map_cons, List.nodup_cons] at hnd ⊢
        refine ⟨?_, ih hnd.2⟩
        intro hc
        obtain ⟨c', hc', e⟩ := List.mem_map.1 hc
        obtain ⟨x', hx', e'⟩ := forall₂_mem hr c' hc'
        have e1 : (l[c.toNat]?).map Prod.fst = some x.1 := hx
        have e2 : (l[c'.toNat]?).map Prod.fst = some x'.1 := e'
        rw [e, e1] at e2
        exact hnd.1 (List.mem_map.2 ⟨x', hx', (Option.some.inj e2).symm⟩)
    · intro k
      rw [List.mem_range]
      constructor
      · intro hk
        obtain ⟨c, hc, rfl⟩ := List.mem_map.1 hk
        obtain ⟨x, -, e⟩ := forall₂_mem h2 c hc
        have e1 : (l[c.toNat]?).map Prod.fst = some x.1 := e
        obtain ⟨y, hy, -⟩ := Option.map_eq_some_iff.1 e1
        exact (List.getElem?_eq_some_iff.1 hy).1
      · intro hk
        have : l[k].1 ∈ links.map Prod.fst := g1.mem_iff.2 (List.mem_map_of_mem (List.getElem_mem hk))
        obtain ⟨x, hx, e⟩ := List.mem_map.1 this
        obtain ⟨c, hc, e1⟩ := partner_right h2 x hx
        exact List.mem_map.2 ⟨c, hc, numbers_unique ht.2 e1 (List.getElem?_eq_getElem hk) e.symm⟩
  · intro i j x hi hj
    obtain ⟨hi1, hi2⟩ := List.getElem?_eq_some_iff.1 hi
    obtain ⟨hj1, hj2⟩ := List.getElem?_eq_some_iff.1 hj
    have li : i < links.length := by rw [h3.length_eq]; exact hi1
    have lj : j < links.length := by rw [h2.length_eq]; exact hj1
    have ni := h3.get li hi1
    have nj := h2.get lj hj1
    simp only [List.get_eq_getElem, hi2, hj2] at ni nj
    have nj' : (l[x.toNat]?).map Prod.fst = some links[j].1 := nj
    have hq : links[i].2 = some links[j].1 := by
      cases hp : links[i].2 with
      | none =>
        rw [hp] at ni
        have e : x = -1 := ni
        rw [e, List.getElem?_eq_none (by
          have : (-1 : BitVec 32).toNat = 4294967295 := rfl
          rw [this]; omega)] at nj'
        cases nj'
      | some q =>
        rw [hp] at ni
        have ni' : (l[x.toNat]?).map Prod.fst = some q := ni
        rw [ni'] at nj'
        exact nj'
    have hsplit : links = links.take i ++ links[i] :: links.drop (i + 1) := by
      rw [List.getElem_cons_drop, List.take_append_drop]
    rcases g2 _ _ _ hsplit _ hq with e | e
    · cases e
    · obtain ⟨y, hy, e⟩ := List.mem_map.1 e
      obtain ⟨k, hk, rfl⟩ := List.mem_iff_getElem.1 hy
      rw [List.getElem_drop] at e
      have hk' : i + 1 + k < links.length := by
        rw [List.length_drop] at hk; omega
      have := (List.getElem_inj (h₀ := by simpa using hk') (h₁ := by simpa using lj) hnd).1 (by simpa using e)
      omega

end

/-- The example tree has four instances of three classes, of which one is a service, and five properties. -/
example (place : Bool) : ∃ b stats m metas shareds insts props parent,
    encodeRoot LZ4.stored false Iter.id Sorter.insertion exHash place exHeap exRoot = .ok b ∧
    decodeFile LZ4.stored (fun _ => 0) false false b = ([], stats, .ok (.model m)) ∧
    FileLayout place exRoot.metadata exHeap exRoot.instances exList m metas shareds insts props parent ∧
    ((insts.flatMap InstChunk.ids).map (·.toNat)).Perm [0, 1, 2, 3] ∧
    (parent.children.map (·.toNat)).Perm [0, 1, 2, 3] := by
  obtain ⟨b, hb⟩ := exEncoded place
  obtain ⟨stats, m, metas, shareds, insts, props, parent, h1, h2, -⟩ := C94_read _ LZ4.stored_lossless (fun _ => 0) false false
    _ _ _ place _ _ _ (exEncodable place) b hb
  exact ⟨b, stats, m, metas, shareds, insts, props, parent, hb, h1, h2, C94_numbers h2, (C94_parents h2 exTrees (by decide)).1⟩

end Props
