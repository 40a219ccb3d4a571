import Verif.Rbxl.Wire
import Verif.Rbxl.Layout
import Verif.Props.CFrame
import Verif.Spec.WireValue
/-!
# The bytes of the values of a tree
-/
namespace Rbxl
open Go Rbxfile Spec

variable {ρ : Type} [DecidableEq ρ]

theorem turned_special {r : Matrix} {id : Byte} (h : cframeSpecialNumber r = some id) (m : Rot) : Wire.Turned r id m := by
  refine ⟨?_, ?_⟩
  · intro i j hr
    have := (Props.C26_id_iff_rotation r _).2 ⟨i, j, hr, rfl⟩
    rw [h] at this
    cases this
    obtain ⟨x, y, hx, hy, -, -⟩ := hr
    have h1 := (List.getElem?_eq_some_iff.1 hx).1
    have h2 := (List.getElem?_eq_some_iff.1 hy).1
    simp only [normals, List.length_cons, List.length_nil] at h1 h2
    rw [BitVec.toNat_ofNat]
    omega
  · intro hn
    exact absurd ((Props.C26_axis_aligned_iff r).1 (by rw [h]; rfl)) hn

theorem turned_plain {r : Matrix} (h : cframeSpecialNumber r = none) : Wire.Turned r 0 (rotOfMatrix r) := by
  refine ⟨?_, fun _ => ⟨rfl, rfl⟩⟩
  intro i j hr
  have := (Props.C26_id_iff_rotation r _).2 ⟨i, j, hr, rfl⟩
  rw [h] at this
  cases this

theorem encodeValue_stores {l : Map ρ (Inst ρ)} {strings : List Bytes} {v : Value ρ} {x : Val} (h : encodeValue v = some x) :
    Wire.Stores l strings v x := by
  cases v <;> first
    | (cases h; done)
    | (injection h with h; exact h.symm)
    | skip
  case cframe pos r =>
    simp only [encodeValue] at h
    split at h
    · rename_i s hs
      injection h with h
      exact ⟨_, _, h.symm, turned_special hs _⟩
    · rename_i hs
      injection h with h
      exact ⟨_, _, h.symm, turned_plain hs⟩

theorem zero_special : cframeSpecialNumber ⟨0, 0, 0, 0, 0, 0, 0, 0, 0⟩ = none := by decide +kernel

theorem newValue_blank {l : Map ρ (Inst ρ)} {t : TypeID} {x : Val} (h : newValue t = some x) (ht : t ≠ .cframeQuat) :
    Wire.Blank l x := by
  by_cases h1 : t = .reference
  · subst h1; injection h with h; exact .inl h.symm
  by_cases h2 : t = .sharedString
  · subst h2; injection h with h; exact .inr (.inl h.symm)
  refine .inr (.inr ⟨t.valueType, ?_, ?_, ?_⟩)
  · cases t <;> first | exact absurd rfl h1 | nofun
  · cases t <;> first | exact absurd rfl h2 | nofun
  · cases t <;> first
      | exact absurd rfl h1
      | exact absurd rfl h2
      | exact absurd rfl ht
      | (cases h; done)
      | (injection h with h; subst h; rfl)
      | skip
    injection h with h
    subst h
    exact ⟨_, _, rfl, turned_plain zero_special⟩

theorem refNum_target {l : Map ρ (Inst ρ)} (hok : l.Ok) (hn : l.length < 2 ^ 31) (p : Option ρ) : Wire.Target l p (refNum l p) := by
  cases p with
  | none => rfl
  | some p =>
    refine ⟨fun hp => numbered_some hok hn hp, fun hp => ?_⟩
    rw [refNum]
    simp only [List.idxOf?_eq_none_iff.2 hp]

theorem enc_element {hash : Bytes → Bytes} {l : Map ρ (Inst ρ)} {t : TypeID} {sh : Shared} {own : Option (Value ρ)} {x : Val}
    (hok : l.Ok) (hn : l.length < 2 ^ 31) (hsh : SharedOk hash (UsedShared l) sh)
    (hc : ∀ s s', UsedShared l s → UsedShared l s' → hash s = hash s' → s = s')
    (hu : ∀ s, own = some (.sharedString s) → UsedShared l s)
    (ht : t ≠ .cframeQuat) (h : Enc hash (refNum l) t sh own x) : Wire.Element l (sh.map Prod.snd) own x := by
  obtain ⟨-, h⟩ := h
  cases own with
  | none => exact newValue_blank h ht
  | some v =>
    cases v <;> first
      | (simp only at h; simp only [Wire.Element]; exact encodeValue_stores h)
      | skip
    case reference p => exact ⟨_, h, refNum_target hok hn p⟩
    case sharedString s =>
      obtain ⟨k, e, h1, h2, h3⟩ := h
      have he := hsh.1 e (List.mem_of_getElem? h2)
      refine ⟨k, h1, ?_⟩
      rw [List.getElem?_map, h2, hc s e.2 (hu s rfl) he.2 (by rw [← he.1, h3])]
      rfl

theorem encOpt_element {l : Map ρ (Inst ρ)} {strings : List Bytes} {t : TypeID} {own : Option (Value ρ)} {x : Val × Bool}
    (ht : t ≠ .cframeQuat) (h : EncOpt t own x) : Wire.OptionalElement l strings own x := by
  obtain ⟨-, h0, h⟩ := h
  have key : x.2 = false → x.2 = false ∧ Wire.Blank l x.1 := fun hx => ⟨hx, newValue_blank (h0 hx) ht⟩
  have some' : ∀ {v : Value ρ}, ((x.2 = true ∧ encodeValue v = some x.1) ∨ (x.2 = false ∧ encodeValue v = none)) →
      encodeValue v ≠ none → x.2 = true ∧ Wire.Stores l strings v x.1 := by
    rintro v (⟨h1, h2⟩ | ⟨_, h2⟩) hv
    · exact ⟨h1, encodeValue_stores h2⟩
    · exact absurd h2 hv
  have none' : ∀ {v : Value ρ}, ((x.2 = true ∧ encodeValue v = some x.1) ∨ (x.2 = false ∧ encodeValue v = none)) →
      encodeValue v = none → x.2 = false ∧ Wire.Blank l x.1 := by
    rintro v (⟨_, h2⟩ | ⟨h1, _⟩) hv
    · rw [hv] at h2; cases h2
    · exact key h1
  cases own with
  | none => exact key h
  | some v =>
    cases v <;> first
      | exact key h
      | skip
    case optional ty o =>
      cases o with
      | none => exact key h
      | some v =>
        cases v <;> first
          | exact none' h rfl
          | exact some' h (fun hx => by cases hx)
          | skip
        case cframe pos r =>
          refine some' h ?_
          simp only [encodeValue]
          split <;> nofun

theorem fromValueType_ne {t : Ty} : fromValueType t ≠ some .cframeQuat := by cases t <;> nofun

theorem chunkOk_column {place : Bool} {hash : Bytes → Bytes} {l : Map ρ (Inst ρ)} {sh : Shared} {cid : BitVec 32} {cls : Bytes}
    {q : Bytes × Kind} {p : PropChunk}
    (hok : l.Ok) (hn : l.length < 2 ^ 31) (hsh : SharedOk hash (UsedShared l) sh)
    (hc : ∀ s s', UsedShared l s → UsedShared l s' → hash s = hash s' → s = s')
    (hw : Written place (valuesOf (classmates l cls) q.1)) (hq : PlanSpec place (valuesOf (classmates l cls) q.1) q.2)
    (h : ChunkOk hash (refNum l) sh cid (classmates l cls) q p) :
    Wire.Column l (sh.map Prod.snd) (classmates l cls) p := by
  obtain ⟨-, h2, h3⟩ := h
  obtain ⟨n, k⟩ := q
  simp only at h2 h3 hw hq
  subst h2
  obtain ⟨v0, hv0⟩ := List.exists_mem_of_ne_nil _ hw.1
  have used : ∀ i ∈ classmates l cls, ∀ s, i.properties.get? p.name = some (.sharedString s) → UsedShared l s := by
    intro i hi s hs
    obtain ⟨x, hx, rfl⟩ := List.mem_map.1 (List.mem_filter.1 hi).1
    exact ⟨x, hx, _, hs⟩
  clear hw
  generalize classmates l cls = mates at used h3 hv0 hq ⊢
  cases k with
  | plain t =>
    have ht : t ≠ .cframeQuat := fun e => fromValueType_ne (e ▸ hq.2.2 v0 hv0)
    clear hv0 hq
    obtain ⟨vs, e1, e2⟩ := h3
    refine .plain t vs e1 ?_ ?_
    · intro x hx
      clear e1 used
      induction e2 with
      | nil => cases hx
      | cons h1 _ ih =>
        rcases List.mem_cons.1 hx with rfl | hx
        · exact h1.1
        · exact ih hx
    · clear e1
      induction e2 with
      | nil => exact .nil
      | cons h1 _ ih =>
        exact .cons (enc_element hok hn hsh hc (used _ List.mem_cons_self) ht h1) (ih fun i hi => used i (List.mem_cons_of_mem _ hi))
  | opt t =>
    have ht : t ≠ .cframeQuat := by
      obtain ⟨_, _, _, e'⟩ := hq v0 hv0
      exact fun e => fromValueType_ne (e ▸ e')
    clear hv0 hq
    obtain ⟨vs, e1, e2⟩ := h3
    refine .optional t vs e1 ?_ ?_
    · intro x hx
      clear e1 used
      induction e2 with
      | nil => cases hx
      | cons h1 _ ih =>
        rcases List.mem_cons.1 hx with rfl | hx
        · exact h1.1
        · exact ih hx
    · exact e2.imp fun _ _ h => encOpt_element ht h

theorem column_typed {l : Map ρ (Inst ρ)} {strings : List Bytes} {insts : List (Inst ρ)} {p : PropChunk}
    (h : Wire.Column l strings insts p) : TypedBody (.prop p) := by
  intro a ha
  rcases h with ⟨t, vs, e, ht, -⟩ | ⟨t, vs, e, ht, -⟩
  · rw [e] at ha; cases ha; exact ht
  · rw [e] at ha; cases ha
    intro v hv
    obtain ⟨x, hx, rfl⟩ := List.mem_map.1 hv
    exact ht x hx

/-- The file that is written for a tree. -/
theorem encodeRoot_wire {lz : LZ4} {u : Bool} {it : Iter} {srt : Sorter} {hash : Bytes → Bytes} {place : Bool} {h : Heap ρ}
    {root : Root ρ} {l : Map ρ (Inst ρ)} (ht : Trees h root.instances l) (hn : l.length < 2 ^ 31)
    (hc : ∀ s s', UsedShared l s → UsedShared l s' → hash s = hash s' → s = s') {b : Bytes}
    (hb : encodeRoot lz u it srt hash place h root = .ok b) :
    ∃ m, Wire.TreeModel place root.metadata h root.instances l m ∧ Wire.File lz u m b ∧
      (SmallChunks it srt hash place h root → ∀ c ∈ m.chunks, (Wire.content c.body).length < 2 ^ 32) := by
  simp only [encodeRoot, Res.bind_eq_ok] at hb
  obtain ⟨f, hf, hb⟩ := hb
  obtain ⟨metas, shareds, insts, props, parent, hl, ⟨sh, hsh, e, hp⟩, hcomp⟩ := codecEncode_parts ht hn hf
  have hcol : ∀ p ∈ props, ∃ c ∈ insts, p.classID = c.classID ∧
      Wire.Column l (shareds.flatMap fun c => c.values.map Prod.snd) (classmates l c.className) p := by
    intro p hpp
    obtain ⟨c, hcc, e1, q, q1, q2, hq⟩ := hp p hpp
    refine ⟨c, hcc, e1, ?_⟩
    rw [e]
    exact chunkOk_column ht.2 hn hsh hc q1 q2 hq
  have htyped : ∀ c ∈ f.chunks, TypedBody c.body := ?_
  · refine ⟨f, ⟨metas, shareds, insts, props, parent, hl, hcol, hcomp⟩, file_wire htyped hb, fun hs c hcm => ?_⟩
    simp only [encodeFile, Res.bind_eq_ok] at hb
    obtain ⟨y, hy, -⟩ := hb
    exact hs f hf c hcm _ (written_content htyped hy c hcm)
  intro c hcm
  have hm := List.mem_map_of_mem (f := Chunk.body) hcm
  rw [hl.chunks] at hm
  simp only [List.mem_append, List.mem_map, List.mem_cons, List.not_mem_nil, or_false] at hm
  rcases hm with ⟨_, _, e⟩ | ⟨_, _, e⟩ | ⟨_, _, e⟩ | ⟨p, hpp, e⟩ | e | e
  · rw [← e]; trivial
  · rw [← e]; trivial
  · rw [← e]; trivial
  · rw [← e]
    obtain ⟨c, -, -, hcc⟩ := hcol p hpp
    exact column_typed hcc
  · rw [e]; trivial
  · rw [e]; trivial

end Rbxl
