import Verif.Rbxlx.SameXml
import Verif.Rbxfile.CopyMaps
import Verif.Props.SameTree
import Verif.Props.XmlResave
/-!
# C93: an XML file depends on the tree
-/
namespace Props
open Go Rbxfile Rbxlx Spec

variable {ρ : Type} [DecidableEq ρ]

/-- C93: two trees are the same, and in each of them the instances, and those referred to, have different References: both are
written, as the same file, whatever the random sources, the orders of maps and the sorting algorithms; and no instance is
changed. -/
theorem C93_same_file (P Q : Params) (L : Layout) (h h' : Heap ρ) (root root' : Root ρ) (l l' : Map ρ (Inst ρ))
    (hq : SameSettings P Q) (ht : Trees h root.instances l) (ht' : Trees h' root'.instances l')
    (ok : ∀ x ∈ l, x.2.properties.Ok) (ok' : ∀ x ∈ l', x.2.properties.Ok)
    (hd : DistinctReferences h l) (hd' : DistinctReferences h' l')
    (hs : SameXmlForest h h' root.instances root'.instances)
    (hm : root.metadata.Ok) (hm' : root'.metadata.Ok) (he : ∀ k, root'.metadata.get? k = root.metadata.get? k) :
    ∃ b, encode P L h root = .ok (b, h) ∧ encode Q L h' root' = .ok (b, h') :=
  encode_pair hq L ht ht' ok ok' hd hd' hs hm hm' he

theorem same_self {h : Heap ρ} {l0 : Map ρ (Inst ρ)} (hd : DistinctReferences h l0) {ps : List ρ} {l : Map ρ (Inst ρ)}
    (f : Forest h ps l) (hl : ∀ x ∈ l, x ∈ l0) : SameXmlForest h h ps ps := by
  induction f with
  | nil => exact .nil
  | @cons p ps inst below rest hp f1 f2 ih1 ih2 =>
    refine .cons hp hp rfl rfl (fun n => ?_) (ih1 fun x hx => hl x (by simp [hx])) (ih2 fun x hx => hl x (by simp [hx]))
    cases hv : inst.properties.get? n with
    | none => trivial
    | some v =>
      show SameXmlValue h h v v
      unfold SameXmlValue
      split
      · rename_i _ _ q
        obtain ⟨a, ha, -⟩ := hd.present q (.inr ⟨(p, inst), hl _ (by simp), n, hv⟩)
        exact ⟨a, a, ha, ha, rfl⟩
      · rfl

/-- C93: a tree whose instances, and those it refers to, have different References is written as the same file every time, and
nothing is changed. -/
theorem C93_same_every_time (P : Params) (L : Layout) (h : Heap ρ) (root : Root ρ) (l : Map ρ (Inst ρ))
    (ht : Trees h root.instances l) (ok : ∀ x ∈ l, x.2.properties.Ok) (hd : DistinctReferences h l) (hm : root.metadata.Ok) :
    ∃ b, ∀ Q, SameSettings P Q → encode Q L h root = .ok (b, h) := by
  have hs := same_self hd ht.1 fun x hx => hx
  obtain ⟨b, h1, -⟩ := C93_same_file P P L h h root root l l ⟨rfl, rfl, rfl, rfl, rfl⟩ ht ht ok ok hd hd hs hm hm fun _ => rfl
  refine ⟨b, fun Q hq => ?_⟩
  obtain ⟨b', h2, h3⟩ := C93_same_file P Q L h h root root l l hq ht ht ok ok hd hd hs hm hm fun _ => rfl
  rw [h1] at h2
  cases h2
  exact h3

/-- The trees after an operation that changes nothing but the References. -/
theorem forest_after {h h' : Heap Nat} (hs : ∀ p a, h.get? p = some a → ∃ r, h'.get? p = some { a with reference := r })
    {ps : List Nat} {l : Map Nat (Inst Nat)} (f : Forest h ps l) :
    ∃ l1, Forest h' ps l1 ∧ l1.map Prod.fst = l.map Prod.fst ∧
      ∀ x ∈ l1, ∃ y ∈ l, x.1 = y.1 ∧ x.2.properties = y.2.properties := by
  induction f with
  | nil => exact ⟨[], .nil, rfl, nofun⟩
  | @cons p ps inst below rest hp f1 f2 ih1 ih2 =>
    obtain ⟨l1, g1, g2, g3⟩ := ih1
    obtain ⟨l2, k1, k2, k3⟩ := ih2
    obtain ⟨r, hr⟩ := hs p inst hp
    refine ⟨_, .cons hr g1 k1, by simp [g2, k2], ?_⟩
    intro x hx
    rcases List.mem_cons.1 hx with rfl | hx
    · exact ⟨(p, inst), by simp, rfl, rfl⟩
    · rcases List.mem_append.1 hx with hx | hx
      · obtain ⟨y, hy, e⟩ := g3 x hx
        exact ⟨y, by simp [hy], e⟩
      · obtain ⟨y, hy, e⟩ := k3 x hx
        exact ⟨y, by simp [hy], e⟩

/-- The counterpart of an instance, or the instance. -/
theorem ref_of_partner {h h' : Heap Nat} {ps cs : List Nat} {l : Map Nat (Inst Nat)} {ren : Map Nat Nat}
    (r : CopyResult h ps l h' cs ren) {p : Nat} {a : Inst Nat} (ha : h'.get? p = some a) :
    ∃ b, h'.get? ((ren.get? p).getD p) = some b ∧ b.reference = a.reference := by
  rcases hg : Map.get? ren p with _ | d
  · exact ⟨a, ha, rfl⟩
  · have hm := Map.mem_of_get? hg
    obtain ⟨-, b, -, hb, -⟩ := r.same p d hm
    exact ⟨b, hb, (r.refs p d a b hm ha hb).1⟩

/-- The trees, and their copy, after copying. -/
theorem copy_pair {h h' : Heap Nat} {ps cs : List Nat} {l : Map Nat (Inst Nat)} {ren : Map Nat Nat}
    (ht : Trees h ps l) (hfonts : FontsClean l) (r : CopyResult h ps l h' cs ren)
    {refs : References Nat} (known : ∀ p, Mentioned l p → ∃ a, h'.get? p = some a ∧ isEmptyReference a.reference = false ∧
      refs.at a.reference = some p) :
    ∃ l1 l', Trees h' ps l1 ∧ Trees h' cs l' ∧ DistinctReferences h' l1 ∧ DistinctReferences h' l' ∧
      SameXmlForest h' h' ps cs := by
  have d := r.deepCopy ht.1 hfonts
  have hn : (ren.map Prod.fst).Nodup := by rw [r.domain]; exact ht.2
  obtain ⟨l1, f1, k1, p1⟩ := forest_after r.source ht.1
  obtain ⟨l', f2, hr⟩ := forest_counterparts r.counterparts.children ht.1 r.roots
  have hr' := hr
  rw [← r.domain] at hr'
  have e := forall₂_map_fst hn (fun x hx => hx) hr'
  have m1 : ∀ p, Mentioned l1 p → Mentioned l p := by
    rintro p (hp | ⟨x, hx, n, hv⟩)
    · exact .inl (k1 ▸ hp)
    · obtain ⟨y, hy, -, e2⟩ := p1 x hx
      exact .inr ⟨y, hy, n, e2 ▸ hv⟩
  have inl : ∀ p c, (p, c) ∈ ren → ∃ x ∈ l, x.1 = p := by
    intro p c hm
    have : p ∈ l.map Prod.fst := by rw [← r.domain]; exact List.mem_map_of_mem (f := Prod.fst) hm
    obtain ⟨x, hx, e⟩ := List.mem_map.1 this
    exact ⟨x, hx, e⟩
  have m2 : ∀ c, Mentioned l' c → ∃ p, Mentioned l p ∧ c = (ren.get? p).getD p := by
    rintro c (hp | ⟨x, hx, n, hv⟩)
    · rw [e] at hp
      obtain ⟨⟨p, c⟩, hm, rfl⟩ := List.mem_map.1 hp
      obtain ⟨x, hx, rfl⟩ := inl p c hm
      exact ⟨x.1, .inl (List.mem_map_of_mem (f := Prod.fst) hx), by rw [Map.get?_of_mem hn hm]; rfl⟩
    · have hx1 : x.1 ∈ ren.map Prod.snd := e ▸ List.mem_map_of_mem (f := Prod.fst) hx
      obtain ⟨⟨p, c'⟩, hm, e3⟩ := List.mem_map.1 hx1
      simp only at e3
      obtain ⟨y, hy, rfl⟩ := inl p c' hm
      have hxg := Rbxl.Forest.get? f2 x hx
      rw [← e3] at hxg
      obtain ⟨-, -, e4⟩ := d.same y.1 c' y.2 x.2 hm (Rbxl.Forest.get? ht.1 y hy) hxg
      rw [e4 n] at hv
      rcases hw : Map.get? y.2.properties n with _ | w
      · rw [hw] at hv; cases hv
      · rw [hw] at hv
        simp only [Option.map_some, Option.some.injEq] at hv
        cases w <;> first | cases hv | skip
        rename_i q
        cases q with
        | none => cases hv
        | some q =>
          simp only [retarget, Value.reference.injEq, Option.some.injEq] at hv
          exact ⟨q, .inr ⟨y, hy, n, hw⟩, hv.symm⟩
  refine ⟨l1, l', ⟨f1, by simp only [Map.Ok, k1]; exact ht.2⟩, ⟨f2, by simp only [Map.Ok, e]; exact r.distinct⟩, ?_, ?_, ?_⟩
  · refine ⟨fun p hp => ?_, fun p q a b hp hq ha hb hab => ?_⟩
    · obtain ⟨a, h1, h2, -⟩ := known p (m1 p hp)
      exact ⟨a, h1, h2⟩
    · obtain ⟨a', h1, -, h2⟩ := known p (m1 p hp)
      obtain ⟨b', h3, -, h4⟩ := known q (m1 q hq)
      rw [ha] at h1; cases h1
      rw [hb] at h3; cases h3
      rw [hab, h4] at h2
      exact (Option.some.inj h2).symm
  · refine ⟨fun p hp => ?_, fun p q a b hp hq ha hb hab => ?_⟩
    · obtain ⟨p', hp', rfl⟩ := m2 p hp
      obtain ⟨a, h1, h2, -⟩ := known p' hp'
      obtain ⟨b, h3, h4⟩ := ref_of_partner r h1
      exact ⟨b, h3, by rw [h4]; exact h2⟩
    · obtain ⟨p', hp', rfl⟩ := m2 p hp
      obtain ⟨q', hq', rfl⟩ := m2 q hq
      obtain ⟨a', h1, -, h2⟩ := known p' hp'
      obtain ⟨b', h3, -, h4⟩ := known q' hq'
      obtain ⟨a2, h5, h6⟩ := ref_of_partner r h1
      obtain ⟨b2, h7, h8⟩ := ref_of_partner r h3
      rw [ha] at h5; cases h5
      rw [hb] at h7; cases h7
      rw [← h6, hab, h8, h4] at h2
      rw [Option.some.inj h2]
  · have go : ∀ {ps : List Nat} {l0 : Map Nat (Inst Nat)}, Forest h ps l0 → (∀ x ∈ l0, x ∈ l) → ∀ {cs : List Nat},
        List.Forall₂ (fun p c => (p, c) ∈ ren) ps cs → SameXmlForest h' h' ps cs := by
      intro ps l0 f
      induction f with
      | nil => intro _ cs hc; cases hc; exact .nil
      | @cons p ps inst below rest hp f1 f2 ih1 ih2 =>
        intro hl cs hc
        cases hc with
        | @cons _ c _ cs hpc hrest =>
          obtain ⟨a, b, ha, hb, hch⟩ := d.children p c hpc
          rw [hp] at ha; cases ha
          obtain ⟨e1, -, e3⟩ := d.same p c inst b hpc hp hb
          obtain ⟨rf, hsrc⟩ := r.source p inst hp
          refine .cons hsrc hb e1.symm (r.refs p c _ b hpc hsrc hb).1.symm (fun n => ?_)
            (ih1 (fun x hx => hl x (by simp [hx])) hch) (ih2 (fun x hx => hl x (by simp [hx])) hrest)
          rw [e3 n]
          show SameXmlProperty h' h' (Map.get? inst.properties n) _
          rcases hv : Map.get? inst.properties n with _ | v
          · trivial
          · show SameXmlValue h' h' v (retarget ren v)
            by_cases hq : ∃ q, v = .reference (some q)
            · obtain ⟨q, rfl⟩ := hq
              obtain ⟨a, ha, -⟩ := known q (.inr ⟨_, hl (p, inst) (by simp), n, hv⟩)
              obtain ⟨b, hb, hab⟩ := ref_of_partner r ha
              exact ⟨a, b, ha, hb, hab.symm⟩
            · cases v <;> first | rfl | skip
              rename_i q
              cases q with
              | none => rfl
              | some q => exact absurd ⟨q, rfl⟩ hq
    exact go ht.1 (fun _ h => h) r.roots

section
variable (rand : Nat → Bytes) (fuel : Nat) (itc : Iter) (h : Heap Nat) (next pos : Nat)

/-- C93: a root that has been copied, and the copy, are written as the same file. Missing: metadata, which is not copied, and Fonts
whose CachedFaceId is not the Family, see `C93_copy_fails`. -/
theorem C93_root_copy_partial (root root' : Root Nat) (l : Map Nat (Inst Nat)) (h' : Heap Nat)
    (ok : HeapOk h) (ht : Trees h root.instances l) (hb : ∀ x, next ≤ x → h.get? x = none)
    (hfonts : FontsClean l) (hmeta : root.metadata = [])
    (e : rootCopy (genOf rand) fuel itc h next pos root = .ok (root', h')) (P Q : Params) (hq : SameSettings P Q) (L : Layout) :
    ∃ b, encode P L h' root = .ok (b, h') ∧ encode Q L h' root' = .ok (b, h') := by
  have hm' := C30_metadata_fails rand fuel itc h next pos root root' h' e
  simp only [rootCopy] at e
  obtain ⟨⟨cs, s⟩, e1, e⟩ := Res.bind_eq_ok.1 e
  simp only [Res.pure_eq, Res.ok.injEq, Prod.mk.injEq] at e
  obtain ⟨rfl, rfl⟩ := e
  have r := copyResult (genOf_nonempty rand) ok ht hb e1
  obtain ⟨refs, known⟩ := copy_known (genOf_nonempty rand) ok ht hb e1
  have maps := resolveAll_maps (crefs := s.crefs) (refs := s.st.refs) (prs := s.props) (copyList_maps (s := copyStart h next pos) (fun _ _ _ _ => copyInst_maps) ok.maps e1)
  obtain ⟨l1, l', t1, t2, d1, d2, hs⟩ := copy_pair ht hfonts r known
  exact C93_same_file P Q L _ _ root _ l1 l' hq t1 t2 (fun x hx => maps _ _ (Rbxl.Forest.get? t1.1 x hx))
    (fun x hx => maps _ _ (Rbxl.Forest.get? t2.1 x hx)) d1 d2 hs (by rw [hmeta]; exact Map.ok_nil) (by rw [hm']; exact Map.ok_nil)
    (fun k => by rw [hmeta, hm'])

/-- C93: the same for a single instance. -/
theorem C93_instance_copy_partial (p c : Nat) (l : Map Nat (Inst Nat)) (h' : Heap Nat)
    (ok : HeapOk h) (ht : Trees h [p] l) (hb : ∀ x, next ≤ x → h.get? x = none) (hfonts : FontsClean l)
    (e : instanceCopy (genOf rand) fuel itc h next pos p = .ok (c, h')) (P Q : Params) (hq : SameSettings P Q) (L : Layout)
    (metadata : Map Bytes Bytes) (hm : metadata.Ok) :
    ∃ b, encode P L h' ⟨[p], metadata⟩ = .ok (b, h') ∧ encode Q L h' ⟨[c], metadata⟩ = .ok (b, h') := by
  simp only [instanceCopy] at e
  obtain ⟨⟨c', s⟩, e1, e⟩ := Res.bind_eq_ok.1 e
  simp only [Res.pure_eq, Res.ok.injEq, Prod.mk.injEq] at e
  obtain ⟨rfl, rfl⟩ := e
  have e1 := copyList_one e1
  have r := copyResult (genOf_nonempty rand) ok ht hb e1
  obtain ⟨refs, known⟩ := copy_known (genOf_nonempty rand) ok ht hb e1
  have maps := resolveAll_maps (crefs := s.crefs) (refs := s.st.refs) (prs := s.props) (copyList_maps (s := copyStart h next pos) (fun _ _ _ _ => copyInst_maps) ok.maps e1)
  obtain ⟨l1, l', t1, t2, d1, d2, hs⟩ := copy_pair ht hfonts r known
  exact C93_same_file P Q L _ _ _ _ l1 l' hq t1 t2 (fun x hx => maps _ _ (Rbxl.Forest.get? t1.1 x hx))
    (fun x hx => maps _ _ (Rbxl.Forest.get? t2.1 x hx)) d1 d2 hs hm hm (fun k => rfl)

end

/-! ### Examples -/

/-- The example of C27 is copied: the original and the copy are written as the same file, with different random sources and orders of
maps. -/
example : ∃ root' h', rootCopy (genOf counter) 4 Iter.id exCopy 3 0 { instances := [0] } = .ok (root', h') ∧
    root'.instances = [3] ∧ ∃ b, encode exP {} h' { instances := [0] } = .ok (b, h') ∧ encode exQ {} h' root' = .ok (b, h') := by
  have e : rootCopy (genOf counter) 4 Iter.id exCopy 3 0 { instances := [0] } = .ok (_, _) := ok_copyOf (by decide +kernel)
  refine ⟨_, _, e, by decide +kernel, ?_⟩
  obtain ⟨l, ht, hf, hl⟩ := exCopy_trees
  refine C93_root_copy_partial counter 4 Iter.id exCopy 3 0 { instances := [0] } _ l _ exCopy_ok ht ?_ hf rfl e exP exQ
    ⟨rfl, rfl, rfl, rfl, rfl⟩ {}
  intro x hx
  simp only [exCopy, Map.get?]
  rw [if_neg (by omega), if_neg (by omega), if_neg (by omega)]

/-- The files of saving a tree with two random sources and orders of maps. -/
def savedBoth (P Q : Params) (h h' : Heap Nat) (root root' : Root Nat) : Res (Bytes × Bytes) :=
  encode P {} h root >>= fun x => encode Q {} h' root' >>= fun y => .ok (x.1, y.1)

/-- The files of saving a root after copying it, and of saving the copy. -/
def savedCopy (h : Heap Nat) (next : Nat) (root : Root Nat) : Res (Bytes × Bytes) :=
  rootCopy (genOf counter) 4 Iter.id h next 0 root >>= fun y => savedBoth exP exP y.2 y.2 root y.1

/-- Without different References the file depends on the random source: one instance without a Reference, and two that have the same. -/
theorem C93_references_fails :
    differs (savedBoth exP exQ (oneHeap (.int 1)) (oneHeap (.int 1)) { instances := [0] } { instances := [0] }) = true ∧
    differs (savedBoth exP exQ [(0, { className := str "A", reference := str "R" }), (1, { className := str "A", reference := str "R" })]
      [(0, { className := str "A", reference := str "R" }), (1, { className := str "A", reference := str "R" })]
      { instances := [0, 1] } { instances := [0, 1] }) = true := by decide +kernel

/-- The full C93 fails for copies: of a root with metadata, and of a Font whose CachedFaceId is not the Family. -/
theorem C93_copy_fails :
    differs (savedCopy exCopy 3 { instances := [0], metadata := [(str "a", str "b")] }) = true ∧
    differs (savedCopy fontHeap 1 { instances := [0] }) = true := by decide +kernel

end Props
