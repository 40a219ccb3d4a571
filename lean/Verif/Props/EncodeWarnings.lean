import Verif.Rbxl.EncodeWarnings
import Verif.Props.EncodeExamples
/-!
# C88: What the binary encoder leaves out, it reports
-/
namespace Props
open Go Rbxfile Rbxl Spec

variable {ρ : Type} [DecidableEq ρ]

/-- The first of the values is a unique id (which the format of models does not have). -/
def FirstIsUniqueId (vs : List (Value ρ)) : Prop := ∃ v rest, vs = v :: rest ∧ v.type = .uniqueId

omit [DecidableEq ρ] in
theorem dropped_iff {place : Bool} {vs : List (Value ρ)} (hne : vs ≠ []) :
    ¬ Written place vs ↔ (¬ Written place vs ∧ ¬ (place = false ∧ FirstIsUniqueId vs)) ∨
      (place = false ∧ FirstIsUniqueId vs) := by
  constructor
  · intro h
    by_cases hp : place = false ∧ FirstIsUniqueId vs
    · exact .inr hp
    · exact .inl ⟨h, hp⟩
  · rintro (⟨h, -⟩ | ⟨hp, v, rest, rfl, hv⟩)
    · exact h
    · rintro ⟨-, t, ht, hu⟩
      have := ht v (by simp)
      rw [hv] at this
      rw [hu this.symm] at hp
      cases hp

omit [DecidableEq ρ] in
theorem warned_iff {place : Bool} {vs : List (Value ρ)} :
    vs ≠ [] ∧ ¬ Written place vs ∧ ¬ (place = false ∧ FirstIsUniqueId vs) ↔
      (∃ v ∈ vs, ∃ v' ∈ vs, binType v.type ≠ binType v'.type) ∧ ¬ (place = false ∧ FirstIsUniqueId vs) := by
  constructor
  · rintro ⟨hne, hw, hu⟩
    refine ⟨?_, hu⟩
    apply Classical.byContradiction
    intro hno
    apply hw
    obtain ⟨v, rest, rfl⟩ := List.exists_cons_of_ne_nil hne
    refine ⟨hne, binType v.type, fun v' hv' => ?_, fun hb => ?_⟩
    · apply Classical.byContradiction
      intro hd
      exact hno ⟨v', hv', v, by simp, hd⟩
    · have hv : v.type = .uniqueId := by
        cases ht : v.type <;> rw [ht] at hb <;> simp [binType] at hb ⊢
      cases hp : place
      · exact absurd ⟨hp, v, rest, rfl, hv⟩ hu
      · rfl
  · rintro ⟨⟨v, hv, v', hv', hd⟩, hu⟩
    refine ⟨List.ne_nil_of_mem hv, ?_, hu⟩
    rintro ⟨-, t, ht, -⟩
    exact hd ((ht v hv).trans (ht v' hv').symm)

/-- C88, for the codec inside the encoder: it collects a warning about exactly those classes and properties of which the
instances disagree about the type (except, in a model, if the first of the values is a unique id). -/
theorem C88_collects_partial (it : Iter) (srt : Sorter) (hash : Bytes → Bytes) (place : Bool) (h : Heap ρ) (root : Root ρ)
    (l : Map ρ (Inst ρ)) (ht : Trees h root.instances l) (hn : l.length < 2 ^ 31) (f : FormatModel)
    (hf : codecEncode it srt hash place h root = .ok f) :
    ∃ ws, codecWarns it srt place h root = .ok ws ∧ ∀ cls n, (∃ w ∈ ws, w.subject = (cls, n)) ↔
      (∃ v ∈ valuesOf (classmates l cls) n, ∃ v' ∈ valuesOf (classmates l cls) n, binType v.type ≠ binType v'.type) ∧
      ¬ (place = false ∧ FirstIsUniqueId (valuesOf (classmates l cls) n)) := by
  simp only [codecEncode, instList_trees ht, Res.ok_bind, Res.bind_eq_ok, Res.pure_eq, Res.ok.injEq] at hf
  obtain ⟨⟨props, shared⟩, hprops, -⟩ := hf
  obtain ⟨names, -, -, hnm, hcl⟩ := classList_eq it srt place (l.map Prod.snd)
  rw [hcl] at hprops
  obtain ⟨ws, hws, hiff⟩ := classesWarns_iff hn names 0 [] shared props hprops
  refine ⟨ws, ?_, fun cls n => ?_⟩
  · simp only [codecWarns, instList_trees ht, Res.ok_bind, hcl]
    exact hws
  · have hcm : classInsts (l.map Prod.snd) cls = classmates l cls := classInsts_eq _ _
    rw [hiff cls n, hcm]
    refine Iff.trans ?_ warned_iff
    refine ⟨fun ⟨_, h⟩ => h, fun h => ⟨?_, h⟩⟩
    rw [hnm]
    obtain ⟨v, hv⟩ := List.exists_mem_of_ne_nil _ h.1
    obtain ⟨i, hi, -⟩ := List.mem_filterMap.1 hv
    have := List.mem_filter.1 hi
    exact ⟨i, this.1, by simpa using this.2⟩

/-- C88, for the codec inside the encoder: a property of an instance is not there after decoding exactly if the codec has
collected a warning about its class and name, or if it is one of a model and its first value is a unique id. Missing: the warnings
are not returned (`C88_silent`, `C88_reports_fails`). -/
theorem C88_lost_partial (lz : LZ4) (hlz : lz.Lossless) (slack : Bytes → Nat) (quat : Quat) (noXML u : Bool)
    (it : Iter) (srt : Sorter) (hash : Bytes → Bytes) (place : Bool) (h : Heap ρ) (root : Root ρ)
    (l : Map ρ (Inst ρ)) (he : Encodable it srt hash place h root l) (b : Bytes)
    (hb : encodeRoot lz u it srt hash place h root = .ok b) :
    ∃ ws stats h' root' φ, codecWarns it srt place h root = .ok ws ∧
    decodeRoot lz slack quat noXML b = ⟨[], [], stats, .ok (.tree h' root')⟩ ∧ Corresp l φ h' ∧
    ∀ p inst, (p, inst) ∈ l → ∃ q inst', φ p = some q ∧ h'.get? q = some inst' ∧
      ∀ n v, inst.properties.get? n = some v →
        (inst'.properties.get? n = none ↔
          (∃ w ∈ ws, w.subject = (inst.className, n)) ∨
          (place = false ∧ FirstIsUniqueId (valuesOf (classmates l inst.className) n))) := by
  obtain ⟨stats, h', root', d, h1, h2, hd, h3, _, h5⟩ := roundtrip lz hlz slack quat noXML u it srt hash
    place h root l he.trees he.metadata he.supported he.collisions he.small b hb
  have hb' := hb
  simp only [encodeRoot, Res.bind_eq_ok] at hb'
  obtain ⟨f, hf, -⟩ := hb'
  obtain ⟨_, _, _, _, _, _, e⟩ := encoded it srt hash place h root l he.trees f hf (he.small f hf)
  obtain ⟨ws, hws, hiff⟩ := C88_collects_partial it srt hash place h root l he.trees e.small f hf
  refine ⟨ws, stats, h', root', decodedId l, hws, h1, h2, fun p inst hp => ?_⟩
  obtain ⟨q, inst', g1, g2, _, _, _, _, g7⟩ := h5 p inst hp
  refine ⟨q, inst', g1, g2, fun n v hv => ?_⟩
  have hne : valuesOf (classmates l inst.className) n ≠ [] := by
    apply List.ne_nil_of_mem (a := v)
    refine List.mem_filterMap.2 ⟨inst, List.mem_filter.2 ⟨List.mem_map.2 ⟨_, hp, rfl⟩, by simp⟩, hv⟩
  rw [hiff, ← warned_iff, and_iff_right hne, ← dropped_iff hne]
  constructor
  · intro hnone hw
    obtain ⟨w, hw, -⟩ := (g7 n).1 hw
    rw [hnone] at hw
    cases hw
  · exact (g7 n).2

/-- A chunk about which the encoder does not warn, wherever it is (an END chunk: at the end). -/
theorem encodeWarnsAux_prop (u dcomp : Bool) (n : Nat) : ∀ (cs : List Chunk) (i : Nat), i + cs.length ≤ n →
    (∀ c ∈ cs.dropLast, (∃ x, c.body = .inst x) ∨ (∃ x, c.body = .prop x) ∨ (∃ x, c.body = .parent x) ∨
      (∃ x, c.body = .metadata x) ∨ (∃ x, c.body = .shared x)) →
    (∀ c ∈ cs.getLast?, c = ⟨.end_ endTag, false⟩) → i + cs.length = n → encodeWarnsAux u dcomp n i cs = [] := by
  intro cs
  induction cs with
  | nil => intros; rfl
  | cons c cs ih =>
    intro i hi hd hl hn
    unfold encodeWarnsAux
    cases cs with
    | nil =>
      have := hl c (by simp)
      subst this
      simp only [List.length_cons, List.length_nil] at hn
      cases u <;> cases dcomp <;> simp [encodeWarnsAux, validChunk, Body.sig, hn]
    | cons c' cs =>
      have hc := hd c (by simp)
      rw [ih (i + 1) (by simp only [List.length_cons] at hi ⊢; omega)
        (fun x hx => hd x (by simp only [List.dropLast_cons_cons, List.mem_cons]; exact .inr hx))
        (fun x hx => hl x (by simpa using hx)) (by simp only [List.length_cons] at hn ⊢; omega)]
      rcases hc with ⟨x, hx⟩ | ⟨x, hx⟩ | ⟨x, hx⟩ | ⟨x, hx⟩ | ⟨x, hx⟩ <;>
        cases u <;> cases dcomp <;> simp [hx, validChunk, Body.sig]

/-- C88, what the code does: the encoder never returns a warning. -/
theorem C88_silent (u : Bool) (it : Iter) (srt : Sorter) (hash : Bytes → Bytes) (place : Bool) (h : Heap ρ) (root : Root ρ)
    (ws : List Warn) (hw : encodeRootWarns u it srt hash place h root = .ok ws) : ws = [] := by
  simp only [encodeRootWarns, codecEncode, Res.bind_eq_ok, Res.pure_eq, Res.ok.injEq] at hw
  obtain ⟨f, ⟨L, -, ⟨props, shared⟩, -, parent, -, rfl⟩, rfl⟩ := hw
  unfold encodeWarns
  refine encodeWarnsAux_prop u false _ _ 0 (by simp) ?_ ?_ (by simp)
  · intro c hc
    rw [show ∀ (a b : Chunk) (l : List Chunk), (l ++ [a, b]).dropLast = l ++ [a] from by
      intro a b l
      rw [show l ++ [a, b] = (l ++ [a]) ++ [b] by simp, List.dropLast_concat]] at hc
    simp only [List.mem_append, List.mem_map, List.mem_singleton] at hc
    rcases hc with (((hc | hc) | ⟨x, -, rfl⟩) | ⟨x, -, rfl⟩) | rfl
    · split at hc
      · cases hc
      · simp only [List.mem_singleton] at hc
        subst hc
        exact .inr (.inr (.inr (.inl ⟨_, rfl⟩)))
    · split at hc
      · cases hc
      · simp only [List.mem_singleton] at hc
        subst hc
        exact .inr (.inr (.inr (.inr ⟨_, rfl⟩)))
    · exact .inl ⟨_, rfl⟩
    · exact .inr (.inl ⟨_, rfl⟩)
    · exact .inr (.inr (.inl ⟨_, rfl⟩))
  · intro c hc
    simp at hc
    exact hc.symm

/-- The example: both instances of class `P` have property `M`, with different types; the codec collects a warning, and neither
has the property after decoding. The other properties are there. -/
example : codecWarns Iter.id Sorter.insertion true exHeap exRoot =
    .ok [.mismatched 1 (some .bool) .int [80#8] [77#8]] := by decide +kernel

example (b : Bytes) (hb : encodeRoot LZ4.stored false Iter.id Sorter.insertion exHash true exHeap exRoot = .ok b)
    (quat : Quat) : ∃ ws stats h' root' φ, codecWarns Iter.id Sorter.insertion true exHeap exRoot = .ok ws ∧
    decodeRoot LZ4.stored (fun _ => 0) quat false b = ⟨[], [], stats, .ok (.tree h' root')⟩ ∧ Corresp exList φ h' ∧
    ∀ p inst, (p, inst) ∈ exList → ∃ q inst', φ p = some q ∧ h'.get? q = some inst' ∧
      ∀ n v, inst.properties.get? n = some v →
        (inst'.properties.get? n = none ↔
          (∃ w ∈ ws, w.subject = (inst.className, n)) ∨
          (true = false ∧ FirstIsUniqueId (valuesOf (classmates exList inst.className) n))) :=
  C88_lost_partial LZ4.stored LZ4.stored_lossless (fun _ => 0) quat false false Iter.id Sorter.insertion exHash true exHeap
    exRoot exList (exEncodable true) b hb

/-- C88 is false of the code: a tree whose encoding leaves out a property of an instance, without any warning. -/
theorem C88_reports_fails : ∃ (h : Heap Nat) (root : Root Nat) (l : Map Nat (Inst Nat)) (f : FormatModel),
    Trees h root.instances l ∧
    codecEncode Iter.id Sorter.insertion exHash true h root = .ok f ∧
    encodeRootWarns false Iter.id Sorter.insertion exHash true h root = .ok [] ∧
    (∃ x ∈ l, x.2.properties.get? [77#8] = some (.int 3)) ∧
    ∀ c ∈ f.chunks, ∀ p, c.body = .prop p → p.name ≠ [77#8] := by
  have hok : ∃ f, codecEncode Iter.id Sorter.insertion exHash true exHeap exRoot = .ok f := by
    have : (codecEncode Iter.id Sorter.insertion exHash true exHeap exRoot).isOk := by decide +kernel
    cases hx : codecEncode Iter.id Sorter.insertion exHash true exHeap exRoot with
    | ok f => exact ⟨f, rfl⟩
    | err e => rw [hx] at this; exact this.elim
    | panic => rw [hx] at this; exact this.elim
  obtain ⟨f, hf⟩ := hok
  have hw : encodeRootWarns false Iter.id Sorter.insertion exHash true exHeap exRoot = .ok [] := by
    have hx : encodeRootWarns false Iter.id Sorter.insertion exHash true exHeap exRoot =
        .ok (encodeWarns false false f) := by simp [encodeRootWarns, hf]
    rw [hx, C88_silent false Iter.id Sorter.insertion exHash true exHeap exRoot _ hx]
  have hn : (match codecEncode Iter.id Sorter.insertion exHash true exHeap exRoot with
      | .ok f => f.chunks.all fun c => match c.body with
        | .prop p => decide (p.name ≠ [77#8])
        | _ => true
      | _ => false) = true := by decide +kernel
  rw [hf] at hn
  refine ⟨exHeap, exRoot, exList, f, exTrees, hf, hw, ⟨_, .tail _ (.head _), rfl⟩, ?_⟩
  intro c hc p hp
  have := List.all_eq_true.1 hn c hc
  rw [hp] at this
  simpa using this

end Props
