import Verif.Rbxl.SameTree
import Verif.Props.Resave
import Verif.Props.Copy
/-!
# C91: a file depends on the tree, not on its pointers
-/
namespace Props
open Go Rbxfile Rbxl Spec

section
variable {ρ : Type} [DecidableEq ρ]

/-- C91: two trees that differ only in where their instances are stored (and in the `Reference` fields) are written as the same
file, or neither can be written. -/
theorem C91_same_file (lz : LZ4) (u : Bool) (it : Iter) (srt : Sorter) (hash : Bytes → Bytes) (place : Bool)
    (h h' : Heap ρ) (root root' : Root ρ) (l l' : Map ρ (Inst ρ)) (ren : List (ρ × ρ))
    (ht : Trees h root.instances l) (ht' : Trees h' root'.instances l')
    (hs : SameTree h root.instances l h' root'.instances l' ren) (hn : l.length < 2 ^ 31)
    (hm : root'.metadata = root.metadata) (b : Bytes) :
    encodeRoot lz u it srt hash place h' root' = .ok b ↔ encodeRoot lz u it srt hash place h root = .ok b := by
  constructor
  · refine encodeRoot_same lz u it it srt srt hash place ht' ht (Rbxl.SameTree.symm hs) ?_ (by rw [hm])
    have h1 := congrArg List.length hs.left
    have h2 := congrArg List.length hs.right
    simp only [List.length_map] at h1 h2
    omega
  · exact encodeRoot_same lz u it it srt srt hash place ht ht' hs hn (by rw [hm])

end

/-- A deep copy is the same tree. -/
theorem deepCopy_same {h h' : Heap Nat} {ps cs : List Nat} {l : Map Nat (Inst Nat)} {ren : Map Nat Nat}
    (ok : HeapOk h) (ht : Trees h ps l) (r : IsDeepCopy h ps l h' cs ren) :
    ∃ l', Trees h' cs l' ∧ SameTree h ps l h' cs l' ren := by
  obtain ⟨l', hf, hr⟩ := forest_counterparts r.children ht.1 r.roots
  have hn : (ren.map Prod.fst).Nodup := by rw [r.domain]; exact ht.2
  have hr' := hr
  rw [← r.domain] at hr'
  have e := forall₂_map_fst hn (fun x hx => hx) hr'
  refine ⟨l', ⟨hf, ?_⟩, r.domain, e.symm, r.roots, ?_⟩
  · simp only [Map.Ok, e]; exact r.distinct
  · intro p c a b hm ha hb
    obtain ⟨h1, h2, h3⟩ := r.same p c a b hm ha hb
    obtain ⟨a', b', ha', hb', h4⟩ := r.children p c hm
    rw [ha] at ha'; cases ha'
    rw [hb] at hb'; cases hb'
    refine ⟨h1, h2, h4, fun n => ?_⟩
    rw [h3 n]
    rcases hv : a.properties.get? n with _ | v
    · trivial
    · show SameValue ren v (retarget ren v)
      by_cases hq : ∃ q, v = .reference q
      · obtain ⟨q, rfl⟩ := hq
        cases q with
        | none => exact .inr ⟨nofun, nofun⟩
        | some q =>
          show SameRef ren _ _
          rcases hg : Map.get? ren q with _ | d
          · right
            have hq : q ∉ ren.map Prod.fst := by
              rw [Map.get?_eq_none] at hg
              exact hg
            refine ⟨by rintro _ ⟨⟩; exact hq, ?_⟩
            rintro x hx hmem
            simp only [Option.getD_none, Option.some.injEq] at hx
            subst hx
            obtain ⟨⟨y, z⟩, hy, rfl⟩ := List.mem_map.1 hmem
            have := r.fresh y z hy
            have h5 := ok.closed p a n z ha (Map.mem_of_get? hv)
            rw [this] at h5
            cases h5
          · exact .inl ⟨q, d, rfl, rfl, Map.mem_of_get? hg⟩
      · have : retarget ren v = v := by
          cases v <;> first | rfl | exact absurd ⟨_, rfl⟩ hq
        rw [this]
        cases v <;> first | exact absurd ⟨_, rfl⟩ hq | rfl

section
variable (rand : Nat → Bytes) (fuel : Nat) (itc : Iter) (h : Heap Nat) (next pos : Nat)

/-- C91: a root and its copy are written as the same file, or neither can be written; whatever the iteration orders of the maps.
Missing: metadata, which is not copied, and Fonts whose CachedFaceId is not the Family, see `C91_copy_fails`. -/
theorem C91_root_copy_partial (root root' : Root Nat) (l : Map Nat (Inst Nat)) (h' : Heap Nat)
    (ok : HeapOk h) (ht : Trees h root.instances l) (hb : ∀ x, next ≤ x → h.get? x = none)
    (hfonts : FontsClean l) (hmeta : root.metadata = [])
    (e : rootCopy (genOf rand) fuel itc h next pos root = .ok (root', h'))
    (lz : LZ4) (u : Bool) (it it' : Iter) (srt srt' : Sorter) (hash : Bytes → Bytes) (place : Bool) (hn : l.length < 2 ^ 31)
    (b : Bytes) :
    encodeRoot lz u it' srt' hash place h' root' = .ok b ↔ encodeRoot lz u it srt hash place h root = .ok b := by
  obtain ⟨ren, r⟩ := C27_root_copy_partial rand fuel itc h next pos root root' l h' ok ht hb hfonts e
  obtain ⟨l', ht', hs⟩ := deepCopy_same ok ht r
  have hm' := C30_metadata_fails rand fuel itc h next pos root root' h' e
  rw [C17_same_bytes_partial lz u it' it srt' srt hash place h' root' (by rw [hm']; exact Nat.zero_le _)]
  exact C91_same_file lz u it srt hash place h h' root root' l l' ren ht ht' hs hn (by rw [hm', hmeta]) b

/-- C91: the same for a single instance. -/
theorem C91_instance_copy_partial (p c : Nat) (l : Map Nat (Inst Nat)) (h' : Heap Nat)
    (ok : HeapOk h) (ht : Trees h [p] l) (hb : ∀ x, next ≤ x → h.get? x = none)
    (hfonts : FontsClean l)
    (e : instanceCopy (genOf rand) fuel itc h next pos p = .ok (c, h'))
    (lz : LZ4) (u : Bool) (it : Iter) (srt : Sorter) (hash : Bytes → Bytes) (place : Bool) (hn : l.length < 2 ^ 31)
    (metadata : Map Bytes Bytes) (b : Bytes) :
    encodeRoot lz u it srt hash place h' ⟨[c], metadata⟩ = .ok b ↔ encodeRoot lz u it srt hash place h ⟨[p], metadata⟩ = .ok b := by
  obtain ⟨ren, r⟩ := C27_instance_copy_partial rand fuel itc h next pos p c l h' ok ht hb hfonts e
  obtain ⟨l', ht', hs⟩ := deepCopy_same ok ht r
  exact C91_same_file lz u it srt hash place h h' ⟨[p], metadata⟩ ⟨[c], metadata⟩ l l' ren ht ht' hs hn rfl b

end

/-- The result of copying a root. -/
def copyOf : Res (Root Nat × Heap Nat) → Root Nat × Heap Nat
  | .ok x => x
  | _ => ({}, [])

theorem ok_copyOf {x : Res (Root Nat × Heap Nat)} (h : x.isOk) : x = .ok ((copyOf x).1, (copyOf x).2) := by
  cases x <;> first | rfl | exact absurd h id

/-- The example of C27 is copied, and the copy written: the same file. -/
example (lz : LZ4) (u : Bool) (hash : Bytes → Bytes) (place : Bool) : ∃ root' h', rootCopy (genOf counter) 4 Iter.id exCopy 3 0
      { instances := [0] } = .ok (root', h') ∧ root'.instances = [3] ∧
    ∀ b, encodeRoot lz u Iter.rev Sorter.insertion hash place h' root' = .ok b ↔
      encodeRoot lz u Iter.id Sorter.insertion hash place exCopy { instances := [0] } = .ok b := by
  have e : rootCopy (genOf counter) 4 Iter.id exCopy 3 0 { instances := [0] } = .ok (_, _) := ok_copyOf (by decide +kernel)
  refine ⟨_, _, e, by decide +kernel, ?_⟩
  obtain ⟨l, ht, hf, hl⟩ := exCopy_trees
  intro b
  refine C91_root_copy_partial counter 4 Iter.id exCopy 3 0 { instances := [0] } _ l _ exCopy_ok ht ?_ hf rfl e lz u _ _ _ _ hash
    place ?_ b
  · intro x hx
    simp only [exCopy, Map.get?]
    rw [if_neg (by omega), if_neg (by omega), if_neg (by omega)]
  · have : l.length ≤ (l.map fun x => 1 + x.2.properties.length).sum := by
      clear ht hf hl e
      induction l with
      | nil => simp
      | cons x l ih => simp only [List.length_cons, List.map_cons, List.sum_cons]; omega
    omega

/-- It can be written. -/
example : (encodeRoot LZ4.stored false Iter.id Sorter.insertion exHash true exCopy { instances := [0] }).isOk := by decide +kernel

/-- A tree of one instance with a Font. -/
def fontHeap : Heap Nat := [(0, Inst.mk (str "A") (str "R") false [(str "F", .font (str "x") 0#16 0#8 (str "y"))] [])]

/-- The full C91 fails: the copy of a root with metadata, and the copy of a Font whose CachedFaceId is not the Family, are written
as another file. -/
theorem C91_copy_fails :
    (∃ (b b' : Bytes) (root' : Root Nat) (h' : Heap Nat),
      rootCopy (genOf counter) 4 Iter.id exCopy 3 0 { instances := [0], metadata := [(str "a", str "b")] } = .ok (root', h') ∧
      encodeRoot LZ4.stored false Iter.id Sorter.insertion exHash true exCopy
        { instances := [0], metadata := [(str "a", str "b")] } = .ok b ∧
      encodeRoot LZ4.stored false Iter.id Sorter.insertion exHash true h' root' = .ok b' ∧ b ≠ b') ∧
    ∃ (b b' : Bytes) (root' : Root Nat) (h' : Heap Nat),
      rootCopy (genOf counter) 4 Iter.id fontHeap 1 0 { instances := [0] } = .ok (root', h') ∧
      encodeRoot LZ4.stored false Iter.id Sorter.insertion exHash true fontHeap { instances := [0] } = .ok b ∧
      encodeRoot LZ4.stored false Iter.id Sorter.insertion exHash true h' root' = .ok b' ∧ b ≠ b' :=
  ⟨⟨_, _, _, _, ok_copyOf (by decide +kernel), ok_bytesOf (by decide +kernel), ok_bytesOf (by decide +kernel), by decide +kernel⟩,
    ⟨_, _, _, _, ok_copyOf (by decide +kernel), ok_bytesOf (by decide +kernel), ok_bytesOf (by decide +kernel),
      by decide +kernel⟩⟩

end Props
