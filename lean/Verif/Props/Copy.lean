import Verif.Rbxfile.CopyMain
import Verif.Rbxl.EncTree
import Verif.Props.Refs
/-!
# C27, C28, C30: copying instances and roots
-/
namespace Props
open Go Rbxfile Spec

theorem copy_fontClean {ρ : Type} : ∀ {v : Value ρ}, FontClean v → v.copy = v
  | .font .., h => by simp only [FontClean] at h; simp [Value.copy, h]
  | .optional _ (some v), h => by
    simp only [FontClean] at h
    simp [Value.copy, copy_fontClean h]
  | .optional _ none, _ => rfl
  | .string _, _ | .binaryString _, _ | .protectedString _, _ | .content _, _ | .bool _, _
  | .int _, _ | .float _, _ | .double _, _ | .udim _, _ | .udim2 .., _ | .ray .., _ | .faces .., _
  | .axes .., _ | .brickColor _, _ | .color3 _, _ | .vector2 _, _ | .vector3 _, _ | .cframe .., _
  | .token _, _ | .reference _, _ | .vector3int16 .., _ | .vector2int16 .., _
  | .numberSequence _, _ | .colorSequence _, _ | .numberRange .., _ | .rect .., _
  | .physicalProperties .., _ | .color3uint8 .., _ | .int64 _, _ | .sharedString _, _
  | .uniqueId .., _ => rfl

theorem copied_fontClean {ren : Map Nat Nat} {v : Value Nat} (h : FontClean v) :
    copied ren v = retarget ren v := by
  by_cases hv : ∃ q, v = .reference q
  · obtain ⟨q, rfl⟩ := hv; rfl
  · have hv' : ∀ q, v ≠ .reference q := fun q e => hv ⟨q, e⟩
    rw [copied_nonref hv', copy_fontClean h]
    cases v <;> first | rfl | exact absurd rfl (hv' _)

theorem _root_.Rbxfile.CopyResult.counterparts {h h' : Heap Nat} {ps cs : List Nat} {l : Map Nat (Inst Nat)}
    {ren : Map Nat Nat} (r : CopyResult h ps l h' cs ren) : Counterparts h ps l h' cs ren :=
  ⟨r.domain, r.fresh, r.distinct, r.roots, fun p c hm => by
    obtain ⟨a, b, h1, h2, _, _, h5, _⟩ := r.same p c hm
    exact ⟨a, b, h1, h2, h5⟩⟩

theorem _root_.Rbxfile.CopyResult.deepCopy {h h' : Heap Nat} {ps cs : List Nat} {l : Map Nat (Inst Nat)}
    {ren : Map Nat Nat} (r : CopyResult h ps l h' cs ren)
    (hf : Forest h ps l) (hfc : FontsClean l) :
    IsDeepCopy h ps l h' cs ren := by
  refine ⟨r.counterparts, ?_, r.source, r.onlyNew⟩
  intro p c a b hm ha hb
  obtain ⟨a', b', h1, h2, h3, h4, h5, h6⟩ := r.same p c hm
  rw [ha] at h1; cases h1
  rw [hb] at h2; cases h2
  refine ⟨h3, h4, fun name => ?_⟩
  rw [h6 name]
  cases hv : a.properties.get? name with
  | none => rfl
  | some v =>
    have hp : p ∈ l.map Prod.fst := by
      rw [← r.domain]; exact List.mem_map_of_mem (f := Prod.fst) hm
    obtain ⟨x, hx, rfl⟩ := List.mem_map.1 hp
    have := Rbxl.Forest.get? hf x hx
    rw [ha] at this
    simp only [Option.some.injEq] at this
    simp only [Option.map_some, Option.some.injEq]
    exact copied_fontClean (hfc x hx name v (by rw [← this]; exact hv))

section
variable (rand : Nat → Bytes) (fuel : Nat) (it : Iter) (h : Heap Nat) (next pos : Nat)

theorem copyList_one {f : Nat → CState → Res (Nat × CState)} {p c : Nat} {s s' : CState}
    (e : f p s = .ok (c, s')) : copyList f [p] s = .ok ([c], s') := by
  simp [copyList, e]

theorem instanceCopy_result {p c : Nat} {l : Map Nat (Inst Nat)} {h' : Heap Nat}
    (ok : HeapOk h) (ht : Trees h [p] l) (hb : ∀ x, next ≤ x → h.get? x = none)
    (e : instanceCopy (genOf rand) fuel it h next pos p = .ok (c, h')) :
    ∃ ren, CopyResult h [p] l h' [c] ren := by
  simp only [instanceCopy] at e
  obtain ⟨⟨c', s⟩, e1, e⟩ := Res.bind_eq_ok.1 e
  simp only [Res.pure_eq, Res.ok.injEq, Prod.mk.injEq] at e
  obtain ⟨rfl, rfl⟩ := e
  exact ⟨_, copyResult (genOf_nonempty rand) ok ht hb (copyList_one e1)⟩

theorem rootCopy_result {root root' : Root Nat} {l : Map Nat (Inst Nat)} {h' : Heap Nat}
    (ok : HeapOk h) (ht : Trees h root.instances l) (hb : ∀ x, next ≤ x → h.get? x = none)
    (e : rootCopy (genOf rand) fuel it h next pos root = .ok (root', h')) :
    ∃ ren, CopyResult h root.instances l h' root'.instances ren := by
  simp only [rootCopy] at e
  obtain ⟨⟨cs, s⟩, e1, e⟩ := Res.bind_eq_ok.1 e
  simp only [Res.pure_eq, Res.ok.injEq, Prod.mk.injEq] at e
  obtain ⟨rfl, rfl⟩ := e
  exact ⟨_, copyResult (genOf_nonempty rand) ok ht hb e1⟩

/-! ## C27 -/

/-- C27 (part): Instance.Copy, called on the root `p` of a tree, returns the root of a deep copy: for
every heap whose references point to instances, whatever the random source and the order in which
properties are visited. Missing: Fonts whose CachedFaceId is not the Family, see `C27_font_fails`. -/
theorem C27_instance_copy_partial (p c : Nat) (l : Map Nat (Inst Nat)) (h' : Heap Nat)
    (ok : HeapOk h) (ht : Trees h [p] l) (hb : ∀ x, next ≤ x → h.get? x = none)
    (hfonts : FontsClean l)
    (e : instanceCopy (genOf rand) fuel it h next pos p = .ok (c, h')) :
    ∃ ren, IsDeepCopy h [p] l h' [c] ren := by
  obtain ⟨ren, r⟩ := instanceCopy_result rand fuel it h next pos ok ht hb e
  exact ⟨ren, r.deepCopy ht.1 hfonts⟩

/-- C27 (part): the same for Root.Copy. -/
theorem C27_root_copy_partial (root root' : Root Nat) (l : Map Nat (Inst Nat)) (h' : Heap Nat)
    (ok : HeapOk h) (ht : Trees h root.instances l) (hb : ∀ x, next ≤ x → h.get? x = none)
    (hfonts : FontsClean l)
    (e : rootCopy (genOf rand) fuel it h next pos root = .ok (root', h')) :
    ∃ ren, IsDeepCopy h root.instances l h' root'.instances ren := by
  obtain ⟨ren, r⟩ := rootCopy_result rand fuel it h next pos ok ht hb e
  exact ⟨ren, r.deepCopy ht.1 hfonts⟩
end

theorem forest_counterparts {h h' : Heap Nat} {ren : Map Nat Nat}
    (hc : ∀ p c, (p, c) ∈ ren → ∃ a b, h.get? p = some a ∧ h'.get? c = some b ∧
      List.Forall₂ (fun p c => (p, c) ∈ ren) a.children b.children)
    {ps : List Nat} {l : Map Nat (Inst Nat)} (hf : Forest h ps l) :
    ∀ {cs : List Nat}, List.Forall₂ (fun p c => (p, c) ∈ ren) ps cs →
      ∃ l', Forest h' cs l' ∧
        List.Forall₂ (fun p c => (p, c) ∈ ren) (l.map Prod.fst) (l'.map Prod.fst) := by
  induction hf with
  | nil =>
    intro cs h2
    cases h2
    exact ⟨[], .nil, .nil⟩
  | @cons p ps inst below rest hp hbelow hrest ihb ihr =>
    intro cs h2
    cases h2 with
    | cons hpc hrest' =>
      obtain ⟨a, b, ha, hb, hch⟩ := hc _ _ hpc
      rw [hp] at ha; cases ha
      obtain ⟨lb, fb, rb⟩ := ihb hch
      obtain ⟨lr, fr, rr⟩ := ihr hrest'
      refine ⟨_, .cons hb fb fr, ?_⟩
      simp only [List.map_cons, List.map_append]
      exact .cons hpc (List.rel_append rb rr)

theorem forall₂_map_fst {ren : Map Nat Nat} (hn : (ren.map Prod.fst).Nodup) :
    ∀ {l : List (Nat × Nat)}, l ⊆ ren → ∀ {ys : List Nat},
      List.Forall₂ (fun p c => (p, c) ∈ ren) (l.map Prod.fst) ys → ys = l.map Prod.snd
  | [], _, ys, h => by cases h; rfl
  | (p, c) :: l, hs, ys, h => by
    simp only [List.map_cons] at h
    cases h with
    | @cons _ y _ ys hy hys =>
      simp only [List.map_cons, List.cons.injEq]
      have h1 : Map.get? ren p = some c := Map.get?_of_mem hn (hs (List.mem_cons_self ..))
      have h2 : Map.get? ren p = some y := Map.get?_of_mem hn hy
      rw [h1] at h2
      exact ⟨(Option.some.inj h2).symm, forall₂_map_fst hn (fun x hx => hs (List.mem_cons_of_mem _ hx)) hys⟩

/-- The copies are trees again, and share no instance with the heap before. -/
theorem Counterparts.trees {h h' : Heap Nat} {ps cs : List Nat} {l : Map Nat (Inst Nat)}
    {ren : Map Nat Nat} (r : Counterparts h ps l h' cs ren) (ht : Trees h ps l) :
    ∃ l', Trees h' cs l' ∧ (∀ p a, h.get? p = some a → p ∉ l'.map Prod.fst) ∧
      l'.length = l.length := by
  obtain ⟨l', hf, hr⟩ := forest_counterparts r.children ht.1 r.roots
  have hn : (ren.map Prod.fst).Nodup := by rw [r.domain]; exact ht.2
  rw [← r.domain] at hr
  have e := forall₂_map_fst hn (fun x hx => hx) hr
  refine ⟨l', ⟨hf, ?_⟩, ?_, ?_⟩
  · simp only [Map.Ok, e]; exact r.distinct
  · intro p a hp hm
    rw [e] at hm
    obtain ⟨x, hx, rfl⟩ := List.mem_map.1 hm
    have := r.fresh x.1 x.2 hx
    rw [hp] at this; cases this
  · have h1 := congrArg List.length e
    have h2 := congrArg List.length r.domain
    simp only [List.length_map] at h1 h2
    omega

section
variable (rand : Nat → Bytes) (fuel : Nat) (it : Iter) (h : Heap Nat) (next pos : Nat)

/-- C27: the copy is a tree with as many instances, none of which existed before; the references of
the originals and of the copies are not empty, agree with each other and differ between instances; the
heap contains nothing but the originals, changed in their Reference at most, and the copies. No
assumption about Fonts. -/
theorem C27_copy_is_separate (root root' : Root Nat) (l : Map Nat (Inst Nat)) (h' : Heap Nat)
    (ok : HeapOk h) (ht : Trees h root.instances l) (hb : ∀ x, next ≤ x → h.get? x = none)
    (e : rootCopy (genOf rand) fuel it h next pos root = .ok (root', h')) :
    ∃ l', Trees h' root'.instances l' ∧ l'.length = l.length ∧
      (∀ p a, h.get? p = some a → p ∉ l'.map Prod.fst) ∧
      (∀ p a, h.get? p = some a → ∃ r, h'.get? p = some { a with reference := r }) := by
  obtain ⟨ren, r⟩ := rootCopy_result rand fuel it h next pos ok ht hb e
  obtain ⟨l', h1, h2, h3⟩ := Counterparts.trees r.counterparts ht
  exact ⟨l', h1, h3, h2, r.source⟩

/-- C27: copying terminates and does not panic when the random source does not repeat itself too
often: among any `fuel` consecutive references there is one that is not among `n` given ones, where
`n` bounds the number of instances and properties of the tree. -/
theorem C27_copy_returns (n : Nat) (root : Root Nat) (l : Map Nat (Inst Nat))
    (ok : HeapOk h) (ht : Trees h root.instances l) (hb : ∀ x, next ≤ x → h.get? x = none)
    (hn : (l.map fun x => 1 + x.2.properties.length).sum ≤ n)
    (hfr : Fresh (genOf rand) n fuel) :
    ∃ root' h', rootCopy (genOf rand) fuel it h next pos root = .ok (root', h') := by
  obtain ⟨cs, s, e, _⟩ := copyList_total (it := it) hfr (genOf_nonempty rand) ok ht.1
    (depth := h.length + 1) (anc := []) (by simp) (by simp) (by simp) (good_start (pos := pos) hb) hb (by simpa [copyStart, weight] using hn)
  simp only [rootCopy, e, Res.ok_bind]
  exact ⟨_, _, rfl⟩

/-- C27: the same for Instance.Copy. -/
theorem C27_instance_copy_returns (n : Nat) (p : Nat) (l : Map Nat (Inst Nat))
    (ok : HeapOk h) (ht : Trees h [p] l) (hb : ∀ x, next ≤ x → h.get? x = none)
    (hn : (l.map fun x => 1 + x.2.properties.length).sum ≤ n)
    (hfr : Fresh (genOf rand) n fuel) :
    ∃ c h', instanceCopy (genOf rand) fuel it h next pos p = .ok (c, h') := by
  obtain ⟨cs, s, e, _⟩ := copyList_total (it := it) hfr (genOf_nonempty rand) ok ht.1
    (depth := h.length + 1) (anc := []) (by simp) (by simp) (by simp) (good_start (pos := pos) hb) hb (by simpa [copyStart, weight] using hn)
  simp only [copyList] at e
  obtain ⟨⟨c, s'⟩, e1, e⟩ := Res.bind_eq_ok.1 e
  simp only [instanceCopy, e1, Res.ok_bind]
  exact ⟨_, _, rfl⟩

end

theorem copy_face {ρ : Type} : ∀ (v : Value ρ), v.copy = faceFromFamily v
  | .font .. => rfl
  | .optional _ (some v) => by simp [Value.copy, faceFromFamily, copy_face v]
  | .optional _ none => rfl
  | .string _ | .binaryString _ | .protectedString _ | .content _ | .bool _
  | .int _ | .float _ | .double _ | .udim _ | .udim2 .. | .ray .. | .faces ..
  | .axes .. | .brickColor _ | .color3 _ | .vector2 _ | .vector3 _ | .cframe ..
  | .token _ | .reference _ | .vector3int16 .. | .vector2int16 ..
  | .numberSequence _ | .colorSequence _ | .numberRange .. | .rect ..
  | .physicalProperties .. | .color3uint8 .. | .int64 _ | .sharedString _
  | .uniqueId .. => rfl

theorem face_clean {ρ : Type} : ∀ (v : Value ρ), faceFromFamily v = v → FontClean v
  | .font f w st c, h => by
    simp only [faceFromFamily, Value.font.injEq, true_and] at h
    exact h.symm
  | .optional _ (some v), h => by
    simp only [faceFromFamily, Value.optional.injEq, Option.some.injEq, true_and] at h
    exact face_clean v h
  | .optional _ none, _ => trivial
  | .string _, _ | .binaryString _, _ | .protectedString _, _ | .content _, _ | .bool _, _
  | .int _, _ | .float _, _ | .double _, _ | .udim _, _ | .udim2 .., _ | .ray .., _ | .faces .., _
  | .axes .., _ | .brickColor _, _ | .color3 _, _ | .vector2 _, _ | .vector3 _, _ | .cframe .., _
  | .token _, _ | .reference _, _ | .vector3int16 .., _ | .vector2int16 .., _
  | .numberSequence _, _ | .colorSequence _, _ | .numberRange .., _ | .rect .., _
  | .physicalProperties .., _ | .color3uint8 .., _ | .int64 _, _ | .sharedString _, _
  | .uniqueId .., _ => trivial

theorem copied_face (ren : Map Nat Nat) (v : Value Nat) : copied ren v = retarget ren (faceFromFamily v) := by
  by_cases hv : ∃ q, v = .reference q
  · obtain ⟨q, rfl⟩ := hv; rfl
  · have hv' : ∀ q, v ≠ .reference q := fun q e => hv ⟨q, e⟩
    rw [copied_nonref hv', copy_face]
    cases v with
    | reference q => exact absurd rfl (hv' q)
    | optional t x => cases x <;> rfl
    | _ => rfl

theorem retarget_face (ren ren' : Map Nat Nat) {v : Value Nat} (hv : ∀ q, v ≠ .reference q)
    (h : retarget ren (faceFromFamily v) = retarget ren' v) : faceFromFamily v = v := by
  cases v with
  | reference q => exact absurd rfl (hv q)
  | optional t x => cases x <;> exact h
  | _ => exact h

theorem _root_.Rbxfile.CopyResult.copyBut {h h' : Heap Nat} {ps cs : List Nat} {l : Map Nat (Inst Nat)}
    {ren : Map Nat Nat} (r : CopyResult h ps l h' cs ren) : IsCopyBut faceFromFamily h ps l h' cs ren := by
  refine ⟨r.counterparts, ?_, r.source, r.onlyNew⟩
  intro p c a b hm ha hb
  obtain ⟨a', b', h1, h2, h3, h4, h5, h6⟩ := r.same p c hm
  rw [ha] at h1; cases h1
  rw [hb] at h2; cases h2
  refine ⟨h3, h4, fun name => ?_⟩
  rw [h6 name, show copied ren = fun v => retarget ren (faceFromFamily v) from funext (copied_face ren)]

/-- The counterparts in a copy are determined by its roots. -/
theorem counterparts_agree {h h' : Heap Nat} {ren ren' : Map Nat Nat}
    (hc : ∀ p c, (p, c) ∈ ren → ∃ a b, h.get? p = some a ∧ h'.get? c = some b ∧
      List.Forall₂ (fun p c => (p, c) ∈ ren) a.children b.children)
    (hc' : ∀ p c, (p, c) ∈ ren' → ∃ a b, h.get? p = some a ∧ h'.get? c = some b ∧
      List.Forall₂ (fun p c => (p, c) ∈ ren') a.children b.children)
    {ps : List Nat} {l : Map Nat (Inst Nat)} (hf : Forest h ps l) :
    ∀ {cs : List Nat}, List.Forall₂ (fun p c => (p, c) ∈ ren) ps cs → List.Forall₂ (fun p c => (p, c) ∈ ren') ps cs →
      ∀ x ∈ l, ∃ c, (x.1, c) ∈ ren ∧ (x.1, c) ∈ ren' := by
  induction hf with
  | nil => intro cs _ _ x hx; cases hx
  | @cons p ps inst below rest hp hbelow hrest ihb ihr =>
    intro cs h2 h2' x hx
    cases h2 with
    | @cons _ c _ _ hpc hr =>
      cases h2' with
      | cons hpc' hr' =>
        rcases List.mem_cons.1 hx with rfl | hx
        · exact ⟨c, hpc, hpc'⟩
        · obtain ⟨a, b, ha, hb, hch⟩ := hc _ _ hpc
          obtain ⟨a', b', ha', hb', hch'⟩ := hc' _ _ hpc'
          rw [hp] at ha ha'; cases ha; cases ha'
          rw [hb] at hb'; cases hb'
          rcases List.mem_append.1 hx with hx | hx
          · exact ihb hch hch' x hx
          · exact ihr hr hr' x hx

/-- The copy is faithful just if there are no Fonts that are copied wrongly. -/
theorem deepCopy_iff {h h' : Heap Nat} {ps cs : List Nat} {l : Map Nat (Inst Nat)} {ren : Map Nat Nat}
    (r : CopyResult h ps l h' cs ren) (ht : Trees h ps l) : (∃ ren', IsDeepCopy h ps l h' cs ren') ↔ FontsClean l := by
  refine ⟨?_, fun hf => ⟨ren, r.deepCopy ht.1 hf⟩⟩
  rintro ⟨ren', d⟩ x hx name v hv
  by_cases hr : ∃ q, v = .reference q
  · obtain ⟨q, rfl⟩ := hr; trivial
  have hr' : ∀ q, v ≠ .reference q := fun q e => hr ⟨q, e⟩
  have b := r.copyBut
  obtain ⟨c, h1, h2⟩ := counterparts_agree b.children d.children ht.1 b.roots d.roots x hx
  obtain ⟨i, j, hi, hj, -⟩ := b.children _ _ h1
  have hxi := Rbxl.Forest.get? ht.1 x hx
  rw [hi] at hxi
  cases hxi
  have e1 := (b.same _ _ _ _ h1 hi hj).2.2 name
  have e2 := (d.same _ _ _ _ h2 hi hj).2.2 name
  rw [e1, hv] at e2
  simp only [Option.map_some, Option.some.injEq] at e2
  exact face_clean v (retarget_face ren ren' hr' e2)

section
variable (rand : Nat → Bytes) (fuel : Nat) (it : Iter) (h : Heap Nat) (next pos : Nat)

/-- C27: exactly what Instance.Copy makes, for every tree: a deep copy in which every Font has its Family as CachedFaceId; so it
is a faithful copy just if this holds of every Font of the tree already. -/
theorem C27_instance_copy_exact (p c : Nat) (l : Map Nat (Inst Nat)) (h' : Heap Nat)
    (ok : HeapOk h) (ht : Trees h [p] l) (hb : ∀ x, next ≤ x → h.get? x = none)
    (e : instanceCopy (genOf rand) fuel it h next pos p = .ok (c, h')) :
    (∃ ren, IsCopyBut faceFromFamily h [p] l h' [c] ren) ∧ ((∃ ren, IsDeepCopy h [p] l h' [c] ren) ↔ FontsClean l) := by
  obtain ⟨ren, r⟩ := instanceCopy_result rand fuel it h next pos ok ht hb e
  exact ⟨⟨ren, r.copyBut⟩, deepCopy_iff r ht⟩

/-- C27: the same for Root.Copy. -/
theorem C27_root_copy_exact (root root' : Root Nat) (l : Map Nat (Inst Nat)) (h' : Heap Nat)
    (ok : HeapOk h) (ht : Trees h root.instances l) (hb : ∀ x, next ≤ x → h.get? x = none)
    (e : rootCopy (genOf rand) fuel it h next pos root = .ok (root', h')) :
    (∃ ren, IsCopyBut faceFromFamily h root.instances l h' root'.instances ren) ∧
      ((∃ ren, IsDeepCopy h root.instances l h' root'.instances ren) ↔ FontsClean l) := by
  obtain ⟨ren, r⟩ := rootCopy_result rand fuel it h next pos ok ht hb e
  exact ⟨⟨ren, r.copyBut⟩, deepCopy_iff r ht⟩

/-! ## C28 -/

/-- C28: in the copy made by Instance.Copy, a Reference property that points to an instance of the
tree points to its counterpart, one that points elsewhere points to the same instance as before, and
one that is nil is nil. -/
theorem C28_references_retargeted (p c : Nat) (l : Map Nat (Inst Nat)) (h' : Heap Nat)
    (ok : HeapOk h) (ht : Trees h [p] l) (hb : ∀ x, next ≤ x → h.get? x = none)
    (e : instanceCopy (genOf rand) fuel it h next pos p = .ok (c, h')) :
    ∃ ren, Counterparts h [p] l h' [c] ren ∧
      ∀ x y a b name q, (x, y) ∈ ren → h.get? x = some a → h'.get? y = some b →
        a.properties.get? name = some (.reference q) →
        (∀ z w, q = some z → (z, w) ∈ ren → b.properties.get? name = some (.reference (some w))) ∧
        (∀ z, q = some z → z ∉ l.map Prod.fst →
          b.properties.get? name = some (.reference (some z))) ∧
        (q = none → b.properties.get? name = some (.reference none)) := by
  obtain ⟨ren, r⟩ := instanceCopy_result rand fuel it h next pos ok ht hb e
  refine ⟨ren, r.counterparts, ?_⟩
  intro x y a b name q hm ha hb hq
  obtain ⟨a', b', h1, h2, _, _, _, h6⟩ := r.same x y hm
  rw [ha] at h1; cases h1
  rw [hb] at h2; cases h2
  rw [h6 name, hq]
  have hn : ren.Ok := by simp only [Map.Ok, r.domain]; exact ht.2
  refine ⟨?_, ?_, ?_⟩
  · rintro z w rfl hw
    simp [copied, retarget, Map.get?_of_mem hn hw]
  · rintro z rfl hz
    have : ren.get? z = none := Map.get?_eq_none.2 (by rw [r.domain]; exact hz)
    simp [copied, retarget, this]
  · rintro rfl
    rfl

/-- C28: the same for Root.Copy; the trees of all root instances count as one. -/
theorem C28_root_references_retargeted (root root' : Root Nat) (l : Map Nat (Inst Nat))
    (h' : Heap Nat)
    (ok : HeapOk h) (ht : Trees h root.instances l) (hb : ∀ x, next ≤ x → h.get? x = none)
    (e : rootCopy (genOf rand) fuel it h next pos root = .ok (root', h')) :
    ∃ ren, Counterparts h root.instances l h' root'.instances ren ∧
      ∀ x y a b name q, (x, y) ∈ ren → h.get? x = some a → h'.get? y = some b →
        a.properties.get? name = some (.reference q) →
        (∀ z w, q = some z → (z, w) ∈ ren → b.properties.get? name = some (.reference (some w))) ∧
        (∀ z, q = some z → z ∉ l.map Prod.fst →
          b.properties.get? name = some (.reference (some z))) ∧
        (q = none → b.properties.get? name = some (.reference none)) := by
  obtain ⟨ren, r⟩ := rootCopy_result rand fuel it h next pos ok ht hb e
  refine ⟨ren, r.counterparts, ?_⟩
  intro x y a b name q hm ha hb hq
  obtain ⟨a', b', h1, h2, _, _, _, h6⟩ := r.same x y hm
  rw [ha] at h1; cases h1
  rw [hb] at h2; cases h2
  rw [h6 name, hq]
  have hn : ren.Ok := by simp only [Map.Ok, r.domain]; exact ht.2
  refine ⟨?_, ?_, ?_⟩
  · rintro z w rfl hw
    simp [copied, retarget, Map.get?_of_mem hn hw]
  · rintro z rfl hz
    have : ren.get? z = none := Map.get?_eq_none.2 (by rw [r.domain]; exact hz)
    simp [copied, retarget, this]
  · rintro rfl
    rfl

/-- C28: the References of the copies are those of the originals after the call; they are not empty
and different instances have different ones. -/
theorem C28_references_unique (root root' : Root Nat) (l : Map Nat (Inst Nat)) (h' : Heap Nat)
    (ok : HeapOk h) (ht : Trees h root.instances l) (hb : ∀ x, next ≤ x → h.get? x = none)
    (e : rootCopy (genOf rand) fuel it h next pos root = .ok (root', h')) :
    ∃ ren, Counterparts h root.instances l h' root'.instances ren ∧
      (∀ p c a b, (p, c) ∈ ren → h'.get? p = some a → h'.get? c = some b →
        b.reference = a.reference ∧ isEmptyReference a.reference = false) ∧
      (∀ p c p' c' b b', (p, c) ∈ ren → (p', c') ∈ ren → h'.get? c = some b →
        h'.get? c' = some b' → b.reference = b'.reference → c = c') := by
  obtain ⟨ren, r⟩ := rootCopy_result rand fuel it h next pos ok ht hb e
  refine ⟨ren, r.counterparts, r.refs, ?_⟩
  intro p c p' c' b b' hm hm' hb1 hb2 hr
  obtain ⟨a0, _, ha0, _⟩ := r.same p c hm
  obtain ⟨a1, _, ha1, _⟩ := r.same p' c' hm'
  obtain ⟨r0, h0⟩ := r.source p a0 ha0
  obtain ⟨r1, h1⟩ := r.source p' a1 ha1
  have k0 := r.refs p c _ _ hm h0 hb1
  have k1 := r.refs p' c' _ _ hm' h1 hb2
  have hpp := r.refsInj p c p' c' _ _ hm hm' h0 h1 (by rw [← k0.1, ← k1.1, hr])
  subst hpp
  have hn : ren.Ok := by simp only [Map.Ok, r.domain]; exact ht.2
  have g0 := Map.get?_of_mem hn hm
  have g1 := Map.get?_of_mem hn hm'
  rw [g0] at g1
  exact Option.some.inj g1

/-! ## C30 -/

/-- C30 (part): Root.Copy makes a deep copy of all root instances, in order (Fonts as in C27).
Missing: the metadata, which is lost, see `C30_metadata_fails`. -/
theorem C30_root_copy_partial (root root' : Root Nat) (l : Map Nat (Inst Nat)) (h' : Heap Nat)
    (ok : HeapOk h) (ht : Trees h root.instances l) (hb : ∀ x, next ≤ x → h.get? x = none)
    (hfonts : FontsClean l)
    (e : rootCopy (genOf rand) fuel it h next pos root = .ok (root', h')) :
    ∃ ren, IsDeepCopy h root.instances l h' root'.instances ren :=
  C27_root_copy_partial rand fuel it h next pos root root' l h' ok ht hb hfonts e

/-- C30 fails for the code: the copy of a root never has metadata. -/
theorem C30_metadata_fails (root root' : Root Nat) (h' : Heap Nat)
    (e : rootCopy (genOf rand) fuel it h next pos root = .ok (root', h')) :
    root'.metadata = [] := by
  simp only [rootCopy] at e
  obtain ⟨⟨cs, s⟩, e1, e⟩ := Res.bind_eq_ok.1 e
  simp only [Res.pure_eq, Res.ok.injEq, Prod.mk.injEq] at e
  obtain ⟨rfl, _⟩ := e
  rfl
end

/-! ### Examples -/

/-- A tree of two instances that refer to each other, to an instance outside and to nil; the second
one has no reference and the outside one has that of the root. -/
def exCopy : Heap Nat :=
  [(0, { className := str "Model", reference := str "R", isService := true, children := [1],
         properties := [(str "In", .reference (some 1)), (str "Out", .reference (some 2)),
           (str "Name", .string (str "m"))] }),
   (1, { className := str "Part",
         properties := [(str "Up", .reference (some 0)), (str "Nil", .reference none)] }),
   (2, { className := str "Folder", reference := str "R" })]

theorem exCopy_ok : HeapOk exCopy := by
  have key : ∀ p a, exCopy.get? p = some a → (p, a) ∈ exCopy := fun p a h => Map.mem_of_get? h
  constructor
  · intro p a name q h hm
    have := key p a h
    simp only [exCopy, List.mem_cons, Prod.mk.injEq, List.not_mem_nil, or_false] at this
    rcases this with ⟨_, rfl⟩ | ⟨_, rfl⟩ | ⟨_, rfl⟩ <;>
      simp only [List.mem_cons, Prod.mk.injEq, List.not_mem_nil, or_false, Value.reference.injEq,
        Option.some.injEq, reduceCtorEq, and_false] at hm
    · rcases hm with ⟨_, e⟩ | ⟨_, e⟩ <;> rw [e] <;> rfl
    · rw [hm.2]; rfl
  · intro p a h
    have := key p a h
    simp only [exCopy, List.mem_cons, Prod.mk.injEq, List.not_mem_nil, or_false] at this
    rcases this with ⟨_, rfl⟩ | ⟨_, rfl⟩ | ⟨_, rfl⟩ <;> simp only [Map.Ok] <;> decide

theorem exCopy_trees : ∃ l, Trees exCopy [0] l ∧ FontsClean l ∧
    (l.map fun x => 1 + x.2.properties.length).sum ≤ 7 := by
  refine ⟨_, ⟨.cons (p := 0) (inst := _) rfl (.cons (p := 1) (inst := _) rfl .nil .nil) .nil, ?_⟩, ?_, ?_⟩
  · simp only [Map.Ok]; decide
  · intro x hx name v hv
    simp only [List.append_nil, List.mem_cons, List.not_mem_nil, or_false] at hx
    rcases hx with rfl | rfl <;> simp only [Map.get?] at hv <;>
      (repeat' split at hv) <;> simp at hv <;> subst hv <;> trivial
  · decide

/-- Copying it: the addresses of the copies, and the targets of the references in the copy. -/
example : ((instanceCopy (genOf counter) 4 Iter.id exCopy 3 0 0) >>= fun x =>
    pure (x.1, x.2.map Prod.fst, (x.2.get? 3).map (·.children)) :
      Res (Nat × List Nat × Option (List Nat))) = .ok (3, [0, 1, 2, 3, 4], some [4]) := by
  decide +kernel

/-- C27 fails for the code: a Font whose CachedFaceId is not its Family is not copied faithfully. -/
theorem C27_font_fails : ∃ (h h' : Heap Nat) (c : Nat) (a b : Inst Nat),
    instanceCopy (genOf counter) 1 Iter.id h 1 0 0 = .ok (c, h') ∧
    h.get? 0 = some a ∧ h'.get? c = some b ∧
    a.properties.get? (str "F") = some (.font (str "x") 0#16 0#8 (str "y")) ∧
    b.properties.get? (str "F") = some (.font (str "x") 0#16 0#8 (str "x")) := by
  refine ⟨[(0, Inst.mk (str "A") (str "R") false
    [(str "F", .font (str "x") 0#16 0#8 (str "y"))] [])], _, _, _, _, rfl, rfl, rfl, rfl, rfl⟩

end Props
