import Verif.Cmd.Stat
import Verif.Spec.Tree
import Verif.Props.EncodeExamples
/-!
# C82: the statistics of rbxfile-stat

`fill it h fuel root` is `Stats.Fill` with `it` the order of iteration over maps; `largestList` is what is written of the
largest properties. `l` lists the instances of the tree.
-/
namespace Props
open Go Rbxfile Cmd Spec

variable {ρ : Type} [DecidableEq ρ]

/-- All properties of the instances, each with its instance. -/
def allProperties (l : Map ρ (Inst ρ)) : List (Inst ρ × Bytes × Value ρ) :=
  l.flatMap fun x => x.2.properties.map fun y => (x.2, y)

/-- The map says how often each key occurs; keys that do not occur are not in it. -/
def Counts {κ : Type} [DecidableEq κ] (m : Map κ Nat) (occurs : κ → Nat) : Prop :=
  m.Ok ∧ ∀ k, m.get? k = if occurs k = 0 then none else some (occurs k)

/-! ## Walking -/

section
variable {S : Type}

/-- The calls for an instance. -/
def callsOf (skip : Bool) (inst : Inst ρ) : List (Inst ρ × Option (Bytes × Value ρ)) :=
  (inst, none) :: (if skip then [] else inst.properties.map fun y => (inst, some y))

theorem walkProps_fold {cb : Callback ρ S} (inst : Inst ρ) (hok : ∀ x s, (cb inst (some x) s).1 = {}) :
    ∀ (xs : List (Bytes × Value ρ)) (s : S), walkProps cb inst xs s =
      (true, (xs.map fun y => (inst, some y)).foldl (fun s e => (cb e.1 e.2 s).2) s)
  | [], s => rfl
  | x :: xs, s => by
    unfold walkProps
    simp only [hok, Bool.false_eq_true, if_false, walkProps_fold inst hok xs, List.map_cons, List.foldl_cons]

theorem walk_fold {cb : Callback ρ S} {skip : Bool} (h0 : ∀ inst s, (cb inst none s).1 = { skipProperties := skip })
    (h1 : skip = false → ∀ inst x s, (cb inst (some x) s).1 = {}) (it : Iter) {h : Heap ρ} {ps : List ρ} {l : Map ρ (Inst ρ)}
    (hf : Forest h ps l) : ∀ (fuel : Nat) (path : List Nat) (i : Nat) (s : S), l.length ≤ fuel →
      ∃ evs : List (Inst ρ × Option (Bytes × Value ρ)), evs.Perm (l.flatMap fun x => callsOf skip x.2) ∧
        walkList (walkInst cb it h fuel) path i ps s = .ok (true, evs.foldl (fun s e => (cb e.1 e.2 s).2) s) := by
  induction hf with
  | nil => intro fuel path i s _; exact ⟨[], .refl _, rfl⟩
  | @cons p ps inst below rest hp _ _ ih1 ih2 =>
    intro fuel path i s hl
    simp only [List.length_cons, List.length_append] at hl
    obtain ⟨fuel, rfl⟩ : ∃ f, fuel = f + 1 := ⟨fuel - 1, by omega⟩
    obtain ⟨e0, q0, r0⟩ : ∃ e0 : List (Inst ρ × Option (Bytes × Value ρ)), e0.Perm (callsOf skip inst) ∧
        (if !skip then walkProps cb inst (it.run (i :: path) inst.properties) (cb inst none s).2 else (true, (cb inst none s).2)) =
          (true, e0.foldl (fun s e => (cb e.1 e.2 s).2) s) := by
      cases skip with
      | true => exact ⟨[(inst, none)], .refl _, rfl⟩
      | false =>
        refine ⟨(inst, none) :: (it.run (i :: path) inst.properties).map fun y => (inst, some y), ?_, ?_⟩
        · exact .cons _ ((it.perm _ _).map _)
        · simp only [Bool.not_false, if_true, walkProps_fold inst (h1 rfl inst), List.foldl_cons]
    obtain ⟨e1, q1, r1⟩ := ih1 fuel (i :: path) 0 (e0.foldl (fun s e => (cb e.1 e.2 s).2) s) (by omega)
    obtain ⟨e2, q2, r2⟩ := ih2 (fuel + 1) path (i + 1) (e1.foldl (fun s e => (cb e.1 e.2 s).2) (e0.foldl (fun s e => (cb e.1 e.2 s).2) s))
      (by omega)
    refine ⟨e0 ++ (e1 ++ e2), ?_, ?_⟩
    · simp only [List.flatMap_cons, List.flatMap_append]
      exact q0.append (q1.append q2)
    · rw [walkList, walkInst]
      simp only [hp, h0, r0, Bool.false_eq_true, if_false, Bool.not_true, Bool.not_false, if_true, r1, r2, List.foldl_append]

end

/-! ## Counting -/

theorem bump_counts {κ : Type} [DecidableEq κ] {m : Map κ Nat} {f : κ → Nat} (h : Counts m f) (k : κ) :
    Counts (bump m k) (fun k' => f k' + if k' = k then 1 else 0) := by
  refine ⟨Map.ok_set h.1 _ _, ?_⟩
  intro k'
  unfold bump
  rw [Map.get?_set, h.2 k]
  by_cases hk : k' = k
  · subst hk
    by_cases h0 : f k' = 0 <;> simp [h0]
  · simp [hk, h.2 k']

/-- Count the key of an event, if it has one. -/
def bumpKey {κ α : Type} [DecidableEq κ] (key : α → Option κ) (m : Map κ Nat) (e : α) : Map κ Nat :=
  match key e with
  | none => m
  | some k => bump m k

theorem fold_counts {κ α : Type} [DecidableEq κ] (key : α → Option κ) : ∀ (evs : List α) (m : Map κ Nat) (f : κ → Nat), Counts m f →
    Counts (evs.foldl (bumpKey key) m)
      (fun k => f k + evs.countP fun e => decide (key e = some k))
  | [], m, f, h => by simpa using h
  | e :: evs, m, f, h => by
    rw [List.foldl_cons]
    have h' : Counts (bumpKey key m e) (fun k => f k + if key e = some k then 1 else 0) := by
      unfold bumpKey
      cases hk : key e with
      | none => simpa using h
      | some k =>
        have := bump_counts h k
        simpa [eq_comm] using this
    have := fold_counts key evs _ _ h'
    simp only [List.countP_cons]
    convert this using 2
    simp only [decide_eq_true_eq]
    omega

theorem counts_nil {κ : Type} [DecidableEq κ] : Counts ([] : Map κ Nat) (fun _ => 0) := ⟨Map.ok_nil, fun _ => rfl⟩

theorem counts_congr {κ : Type} [DecidableEq κ] {m : Map κ Nat} {f g : κ → Nat} (h : ∀ k, f k = g k) : Counts m f ↔ Counts m g := by
  rw [show f = g from funext h]

/-- An event for a property. -/
def propEvent {α : Type} (f : Inst ρ → Bytes × Value ρ → Option α) (e : Inst ρ × Option (Bytes × Value ρ)) : Option α :=
  e.2.bind (f e.1)

theorem count_propEvents {α : Type} [DecidableEq α] (f : Inst ρ → Bytes × Value ρ → Option α) (l : Map ρ (Inst ρ)) (k : α) :
    (l.flatMap fun x => callsOf false x.2).countP (fun e => decide (propEvent f e = some k)) =
      (allProperties l).countP fun y => decide (f y.1 y.2 = some k) := by
  unfold allProperties
  induction l with
  | nil => rfl
  | cons x l ih =>
    rw [List.flatMap_cons, List.flatMap_cons, List.countP_append, List.countP_append, ih]
    congr 1
    simp only [callsOf, Bool.false_eq_true, if_false, List.countP_cons, List.countP_map, propEvent, Option.bind_none, reduceCtorEq,
      decide_false, if_false, Nat.add_zero]
    rfl

/-- What `Fill` counts of the properties. -/
theorem walk_counts {κ : Type} [DecidableEq κ] (cb : Callback ρ (Map κ Nat)) (f : Inst ρ → Bytes × Value ρ → Option κ)
    (h0 : ∀ inst s, cb inst none s = ({}, s)) (h1 : ∀ inst x s, cb inst (some x) s = ({}, bumpKey (fun y => f inst y) s x))
    (it : Iter) {h : Heap ρ} {ps : List ρ} {l : Map ρ (Inst ρ)} (hf : Forest h ps l) (fuel k : Nat) (hl : l.length ≤ fuel) :
    ∃ m, walk cb it h fuel k ps [] = .ok (true, m) ∧
      Counts m fun k => (allProperties l).countP fun y => decide (f y.1 y.2 = some k) := by
  obtain ⟨evs, hp, hw⟩ := walk_fold (skip := false) (cb := cb) (fun i s => by rw [h0]) (fun _ i x s => by rw [h1]) it hf fuel [k] 0 [] hl
  refine ⟨_, hw, ?_⟩
  have he : (fun (s : Map κ Nat) (e : Inst ρ × Option (Bytes × Value ρ)) => (cb e.1 e.2 s).2) = bumpKey (propEvent f) := by
    funext s e
    obtain ⟨i, _ | x⟩ := e
    · simp only [h0]; rfl
    · simp only [h1]; rfl
  rw [he]
  have := fold_counts (propEvent f) evs [] _ counts_nil
  simp only [Nat.zero_add] at this
  convert this using 2
  rw [hp.countP_eq, count_propEvents]

/-- The type of the value of an Optional. -/
def optionalType : Value ρ → Option Ty
  | .optional ty _ => some ty
  | _ => none

theorem walk_instances (it : Iter) {h : Heap ρ} {ps : List ρ} {l : Map ρ (Inst ρ)} (hf : Forest h ps l) (fuel k : Nat)
    (hl : l.length ≤ fuel) : ∃ m, walk cbInstances it h fuel k ps (0, []) = .ok (true, l.length, m) ∧
      Counts m (fun c => l.countP fun x => decide (x.2.className = c)) := by
  obtain ⟨evs, hp, hw⟩ := walk_fold (skip := true) (cb := cbInstances) (fun _ _ => rfl) nofun it hf fuel [k] 0 (0, []) hl
  have hs : ∀ (evs : List (Inst ρ × Option (Bytes × Value ρ))) (s : Nat × Map Bytes Nat),
      evs.foldl (fun s e => (cbInstances e.1 e.2 s).2) s =
        (s.1 + evs.length, evs.foldl (bumpKey fun e => some e.1.className) s.2) := by
    intro evs
    induction evs with
    | nil => intro s; rfl
    | cons e evs ih =>
      intro s
      rw [List.foldl_cons, ih]
      simp only [cbInstances, List.length_cons, List.foldl_cons, Prod.mk.injEq]
      exact ⟨by omega, rfl⟩
  have hc : (l.flatMap fun x => callsOf true x.2) = l.map fun x => (x.2, none) := by
    simp only [callsOf, if_true]
    clear hw hp hf hl
    induction l with
    | nil => rfl
    | cons x l ih => rw [List.flatMap_cons, List.map_cons, ih]; rfl
  rw [hc] at hp
  rw [hs] at hw
  refine ⟨evs.foldl (bumpKey fun e => some e.1.className) [], ?_, ?_⟩
  rotate_left
  · have := fold_counts (fun e : Inst ρ × Option (Bytes × Value ρ) => some e.1.className) evs [] _ counts_nil
    simp only [Nat.zero_add, Option.some.injEq] at this
    convert this using 2
    rw [hp.countP_eq, List.countP_map]
    rfl
  · unfold walk
    rw [hw, hp.length_eq, List.length_map]
    simp

theorem walk_properties (it : Iter) {h : Heap ρ} {ps : List ρ} {l : Map ρ (Inst ρ)} (hf : Forest h ps l) (fuel k : Nat)
    (hl : l.length ≤ fuel) : walk cbProperties it h fuel k ps 0 = .ok (true, (allProperties l).length) := by
  obtain ⟨evs, hp, hw⟩ := walk_fold (skip := false) (cb := cbProperties) (fun _ _ => rfl) (fun _ _ _ _ => rfl) it hf fuel [k] 0 0 hl
  have hs : ∀ (evs : List (Inst ρ × Option (Bytes × Value ρ))) (n : Nat),
      evs.foldl (fun s e => (cbProperties e.1 e.2 s).2) n = n + evs.countP fun e => e.2.isSome := by
    intro evs
    induction evs with
    | nil => intro s; rfl
    | cons e evs ih =>
      intro s
      rw [List.foldl_cons, ih, List.countP_cons]
      obtain ⟨i, _ | x⟩ := e
      · simp [cbProperties]
      · simp [cbProperties]; omega
  unfold walk
  rw [hw, hs, hp.countP_eq]
  congr 2
  rw [Nat.zero_add]
  unfold allProperties
  clear hw hp hf hl
  induction l with
  | nil => rfl
  | cons x l ih =>
    rw [List.flatMap_cons, List.flatMap_cons, List.countP_append, List.length_append, ih]
    congr 1
    simp [callsOf, List.countP_map, Function.comp_def]

/-- C82: for every tree, the statistics are the numbers of instances and of properties; for each class the number of its
instances; for each type the number of properties of this type; for each type the number of properties that are Optional of
this type; and for each class, property, type and length the number of such properties that have a length. -/
theorem C82_counts (it : Iter) (h : Heap ρ) (root : Root ρ) (l : Map ρ (Inst ρ)) (hf : Forest h root.instances l) (fuel : Nat)
    (hl : l.length ≤ fuel) : ∃ s, fill it h fuel root = .ok s ∧
      s.instanceCount = l.length ∧
      s.propertyCount = (allProperties l).length ∧
      Counts s.classCount (fun c => l.countP fun x => decide (x.2.className = c)) ∧
      Counts s.typeCount (fun t => (allProperties l).countP fun y => decide (typeString y.2.2.type.code = t)) ∧
      Counts s.optionalTypeCount (fun t => (allProperties l).countP fun y =>
        decide ((optionalType y.2.2).map (fun ty => typeString ty.code) = some t)) ∧
      Counts s.largest (fun k => (allProperties l).countP fun y => decide (y.1.className = k.cls ∧ y.2.1 = k.property ∧
        typeString y.2.2.type.code = k.type ∧ valueLen y.2.2 = some k.length)) := by
  obtain ⟨mc, hc, cc⟩ := walk_instances it hf fuel 2 hl
  obtain ⟨mt, ht, ct⟩ := walk_counts cbTypes (fun _ x => some (typeString x.2.type.code)) (fun _ _ => rfl) (fun _ _ _ => rfl) it hf fuel 3 hl
  obtain ⟨mo, ho, co⟩ := walk_counts cbOptionals (fun _ x => (optionalType x.2).map fun ty => typeString ty.code) (fun _ _ => rfl)
    (fun _ x _ => by obtain ⟨n, v⟩ := x; cases v <;> rfl) it hf fuel 4 hl
  obtain ⟨mg, hg, cg⟩ := walk_counts cbLargest (fun i x => (valueLen x.2).map fun n => ⟨i.className, x.1, typeString x.2.type.code, n⟩)
    (fun _ _ => rfl) (fun i x _ => by
      simp only [cbLargest, bumpKey]
      cases valueLen x.2 <;> rfl) it hf fuel 5 hl
  refine ⟨⟨l.length, _, mc, mt, mo, mg⟩, ?_, rfl, rfl, cc, ?_, co, ?_⟩
  · unfold fill
    simp only [walk_properties it hf fuel 1 hl, hc, ht, ho, hg]
  · convert ct using 3
    simp
  · refine (counts_congr ?_).1 cg
    intro k
    refine List.countP_congr fun y _ => ?_
    obtain ⟨c, p, t, n⟩ := k
    simp only [decide_eq_true_eq]
    cases valueLen y.2.2 <;> simp [and_assoc]

/-! ## The largest properties -/

theorem strictWeak_length : StrictWeak fun a b : PropLen => decide (b.length < a.length) where
  irrefl a := by simp
  trans a b c := by simp only [decide_eq_true_eq]; omega
  incomp a b c := by simp only [decide_eq_false_iff_not]; omega

/-- C82: of the largest properties, the list that is written has at most 20 entries, all of which are in the map, each once;
they are in order of descending length; and if an entry of the map is left out, then there are 20 in the list, all at least as
long. -/
theorem C82_largest (it : Iter) (srt : Sorter) (m : Map PropLen Nat) (hm : m.Ok) :
    (largestList it srt m).length = min 20 m.length ∧
    (∀ k ∈ largestList it srt m, (m.get? k).isSome = true) ∧
    (largestList it srt m).Nodup ∧
    (largestList it srt m).Pairwise (fun a b => b.length ≤ a.length) ∧
    ∀ k, (m.get? k).isSome = true → k ∉ largestList it srt m → ∀ a ∈ largestList it srt m, k.length ≤ a.length := by
  have hperm : (srt.run (fun a b : PropLen => decide (b.length < a.length)) (it.run [0] m.keys)).Perm m.keys :=
    (srt.perm _ _).trans (it.perm _ _)
  have hsort := srt.sorted _ (it.run [0] m.keys) strictWeak_length
  have hl : largestList it srt m = (srt.run (fun a b : PropLen => decide (b.length < a.length)) (it.run [0] m.keys)).take 20 := by
    unfold largestList
    simp only
    split
    · rfl
    · rw [List.take_of_length_le (by omega)]
  rw [hl]
  generalize srt.run (fun a b : PropLen => decide (b.length < a.length)) (it.run [0] m.keys) = L at *
  have hs : L.Pairwise fun a b => b.length ≤ a.length := hsort.imp fun h => by simpa using h
  have hk : ∀ k, k ∈ L ↔ (m.get? k).isSome = true := fun k => by rw [hperm.mem_iff, Map.get?_isSome]; rfl
  refine ⟨?_, ?_, ?_, ?_, ?_⟩
  · rw [List.length_take, hperm.length_eq]; simp [Map.keys]
  · intro k h; exact (hk k).1 (List.mem_of_mem_take h)
  · exact (hperm.nodup_iff.2 hm).sublist (List.take_sublist _ _)
  · exact hs.sublist (List.take_sublist _ _)
  · intro k h1 h2 a ha
    have h3 := (hk k).2 h1
    rw [← List.take_append_drop 20 L] at h3 hs
    rcases List.mem_append.1 h3 with h | h
    · exact absurd h h2
    · exact (List.pairwise_append.1 hs).2.2 a ha k h

/-- C82: the lengths that are written do not depend on the order of iteration, nor on the algorithm of `sort.Slice`. -/
theorem C82_largest_lengths (it it' : Iter) (srt srt' : Sorter) (m : Map PropLen Nat) :
    (largestList it srt m).map PropLen.length = (largestList it' srt' m).map PropLen.length := by
  have hl : ∀ (it : Iter) (srt : Sorter), (largestList it srt m).map PropLen.length =
      ((srt.run (fun a b : PropLen => decide (b.length < a.length)) (it.run [0] m.keys)).map PropLen.length).take 20 := by
    intro it srt
    unfold largestList
    simp only
    split
    · rw [List.map_take]
    · rw [List.take_of_length_le (by rw [List.length_map]; omega)]
  rw [hl, hl]
  congr 1
  refine List.Perm.eq_of_pairwise (le := fun a b : Nat => b ≤ a) (fun a b _ _ h1 h2 => by omega) ?_ ?_ ?_
  · exact List.pairwise_map.2 ((srt.sorted _ _ strictWeak_length).imp fun h => by simpa using h)
  · exact List.pairwise_map.2 ((srt'.sorted _ _ strictWeak_length).imp fun h => by simpa using h)
  · exact ((srt.perm _ _).trans (it.perm _ _)).map _ |>.trans (((srt'.perm _ _).trans (it'.perm _ _)).map _).symm

/-- The entry of a property called by one byte, of length 1. -/
def tieKey (n : Nat) : PropLen := ⟨[80#8], [BitVec.ofNat 8 n], typeString Ty.string.code, 1⟩

/-- Which properties are written does depend on the order of iteration, when lengths are equal. -/
theorem C82_largest_ties : ∃ m : Map PropLen Nat, m.Ok ∧
    largestList Iter.id Sorter.insertion m ≠ largestList Iter.rev Sorter.insertion m :=
  ⟨(List.range 2).map fun n => (tieKey n, 1), by unfold Map.Ok; decide +kernel, by decide +kernel⟩

/-- The statistics of a concrete tree: 4 instances, 10 properties, two of which are Parts; the shared strings count once. -/
theorem C82_case : ∃ s, fill Iter.id exHeap 4 exRoot = .ok s ∧ s.instanceCount = 4 ∧ s.propertyCount = 10 ∧
    s.classCount.get? [80#8] = some 2 ∧ s.typeCount.get? (typeString Ty.sharedString.code) = some 2 ∧
    s.optionalTypeCount = [(typeString Ty.bool.code, 1)] ∧
    (largestList Iter.id Sorter.insertion s.largest).map PropLen.length = [2, 1, 1] := by
  refine ⟨_, rfl, ?_⟩
  decide +kernel

theorem C82_case_counts : ∃ s, fill Iter.rev exHeap 4 exRoot = .ok s ∧
    Counts s.classCount (fun c => exList.countP fun x => decide (x.2.className = c)) :=
  let ⟨s, h1, _, _, h2, _⟩ := C82_counts Iter.rev exHeap exRoot exList exTrees.1 4 (by decide)
  ⟨s, h1, h2⟩

end Props
