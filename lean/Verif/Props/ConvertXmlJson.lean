import Verif.Props.ConvertXml
import Verif.Props.XmlDecode
import Verif.Props.NotTree
import Verif.Props.JsonForm
import Verif.Rbxlx.DecodeOk
/-!
# C114: converting an XML file to JSON

`Rbxlx.decode F discard s` is `Decoder.Decode` of the XML package, `rootTo … h … root` is `RootToJSONInterface`.
-/
namespace Props
open Go Rbxfile Spec Json

theorem not_mentions {v : Value Nat} {q : Nat} (hm : Mentions v q) : v.type = .reference ∨ v.type = .optional := by
  cases hm
  · exact .inl rfl
  · exact .inr rfl

theorem getValue_plain {F : FloatText} {discard : Bool} {t : Rbxlx.Tag} {ty : Ty} {v : Value Nat}
    (h : Rbxlx.getValue F discard t ty = .ok (some v)) (q : Nat) : ¬ Mentions v q := by
  intro hm
  have ht := getValue_type F discard t ty v h
  rcases not_mentions hm with e | e
  · rw [e] at ht
    subst ht
    simp only [Rbxlx.getValue, Res.ok.injEq, Option.some.injEq] at h
    subst h
    cases hm
  · rw [e] at ht
    subst ht
    simp [Rbxlx.getValue] at h

theorem propValue_plain {F : FloatText} {discard : Bool} {m n : Bytes} {ty : Ty} {o : Bool} {t : Rbxlx.Tag} {v : Value Nat}
    (h : Rbxlx.propValue F discard m ty o t = .ok (.value n v)) (q : Nat) : ¬ Mentions v q := by
  have key : ∀ (w : Value Nat) ty', (∀ q, ¬ Mentions w q) → ¬ Mentions (if o then .optional ty' (some w) else w) q := by
    intro w ty' hw
    cases o
    · exact hw q
    · intro hm
      simp only [if_true] at hm
      cases hm with
      | optional _ _ _ hm => exact hw q hm
  unfold Rbxlx.propValue at h
  split at h
  · cases h
  · cases h
  · cases h
  · rename_i w hw
    have hp := getValue_plain hw
    split at h
    · split at h
      · simp only [Res.ok.injEq, Rbxlx.PropRes.value.injEq] at h
        obtain ⟨-, rfl⟩ := h
        exact key _ _ hp
      · cases h
    · cases h
    · simp only [Res.ok.injEq, Rbxlx.PropRes.value.injEq] at h
      obtain ⟨-, rfl⟩ := h
      exact key _ _ hp

theorem getProperty_plain {F : FloatText} {discard : Bool} {t : Rbxlx.Tag} {n : Bytes} {v : Value Nat}
    (h : Rbxlx.getProperty F discard t = .ok (.value n v)) (q : Nat) : ¬ Mentions v q := by
  unfold Rbxlx.getProperty at h
  split at h
  · cases h
  · simp only at h
    split at h
    · split at h
      · cases h
      · simp only [Res.ok.injEq, Rbxlx.PropRes.value.injEq] at h
        obtain ⟨-, rfl⟩ := h
        nofun
      · exact propValue_plain h q
    · exact propValue_plain h q

/-- An instance that is referred to after decoding an XML file exists. -/
theorem xml_mentions {F : FloatText} {discard : Bool} {s : Bytes} {h : Heap Nat} {root : Root Nat}
    (hd : Rbxlx.decode F discard s = .ok (h, root)) :
    ∀ p inst, h.get? p = some inst → ∀ n v, inst.properties.get? n = some v → ∀ q, Mentions v q → (h.get? q).isSome := by
  rcases hr : Rbxlx.readFrom s with ⟨_ | doc, rest⟩ | e | _
  · rw [C70_no_root hr] at hd
    cases hd
    nofun
  · obtain ⟨l, hb, ht, hdom⟩ := C70_instances hr hd
    have key : ∀ ts ps (m : Map Nat (Inst Nat)), Builds h (fun _ => PropsOf F discard doc.tags l) ts ps m →
        ∀ p inst, (p, inst) ∈ m → ∃ t, PropsOf F discard doc.tags l t inst := by
      intro ts ps m b
      induction b with
      | nil => intro p i hp; cases hp
      | skip _ _ ih => exact ih
      | item _ _ _ _ _ h6 _ _ ih1 ih2 =>
        intro p i hp
        rcases List.mem_cons.1 hp with e | hp
        · cases e; exact ⟨_, h6⟩
        · rcases List.mem_append.1 hp with hp | hp
          · exact ih1 p i hp
          · exact ih2 p i hp
    intro p inst hp n v hv q hq
    have hmem : (p, inst) ∈ l := by
      obtain ⟨⟨p', i⟩, hx, rfl⟩ := List.mem_map.1 ((hdom p).1 ⟨inst, hp⟩)
      have := forest_get ht.1 p' i hx
      rw [hp] at this
      cases this
      exact hx
    obtain ⟨tag, rs, r1, r2⟩ := key _ _ _ hb p inst hmem
    rw [r2] at hv
    unfold propertyOf at hv
    split at hv
    · rename_i ref _
      simp only [Option.some.injEq] at hv
      have hq : targetOf l ref = some q := by
        generalize targetOf l ref = o at hv
        subst hv
        cases hq
        rfl
      unfold targetOf at hq
      split at hq
      · cases hq
      · obtain ⟨x, hx, rfl⟩ := Option.map_eq_some_iff.1 hq
        have hx := (List.mem_filter.1 (List.mem_of_getLast? hx)).1
        obtain ⟨i, hi⟩ := (hdom x.1).2 (List.mem_map.2 ⟨x, hx, rfl⟩)
        rw [hi]; rfl
    · split at hv
      · cases hv
        cases hq
      · unfold lastValue at hv
        have hm := List.mem_of_getLast? hv
        obtain ⟨r, hrm, hre⟩ := List.mem_filterMap.1 hm
        have hall : ∀ (ts : List Rbxlx.Tag) (rs : List (Rbxlx.PropRes Nat)),
            List.Forall₂ (fun t r => Rbxlx.getProperty F discard t = .ok r) ts rs → r ∈ rs →
            ∃ tg, Rbxlx.getProperty F discard tg = .ok r := by
          intro ts rs f
          induction f with
          | nil => intro h; cases h
          | cons h1 _ ih =>
            intro hm
            rcases List.mem_cons.1 hm with rfl | hm
            · exact ⟨_, h1⟩
            · exact ih hm
        obtain ⟨tg, htg⟩ := hall _ _ r1 hrm
        split at hre
        · split at hre
          · cases hre
            exact absurd hq (getProperty_plain htg q)
          · cases hre
        · cases hre
  · unfold Rbxlx.decode at hd
    rw [hr] at hd
    cases hd
  · unfold Rbxlx.decode at hd
    rw [hr] at hd
    cases hd

/-- C114: the tree decoded from an XML file is always converted to JSON, if the random source does not repeat itself (`Fresh`). What is
written is an object with the version 0 and, in order, the forms of the instances in the file with all that is below them
(`JsonForm.Instances`, as in C100). The tree afterwards, `h1`, is the tree of the file except for references that are empty or occur
twice: if there are none, the references are those of the file, too. -/
theorem C114_converts {F : FloatText} {discard : Bool} {s : Bytes} {h : Heap Nat} {root : Root Nat}
    (hd : Rbxlx.decode F discard s = .ok (h, root)) (rand : Nat → Bytes) (fuel : Nat) (it : Iter) (pos : Nat)
    (hf : Fresh (genOf rand) (Rbxlx.demand h) fuel) :
    ∃ js h1, rootTo (genOf rand) fuel it h pos root =
        .ok (JsonForm.object [("rbxfile_version", JsonForm.whole 0), ("instances", .arr js)], h1) ∧
      JsonForm.Instances h1 root.instances js ∧ JsonForm.Distinct h1 ∧
      (∀ p inst, h.get? p = some inst → ∃ r, h1.get? p = some { inst with reference := r }) ∧
      (∀ p inst, h1.get? p = some inst → ∃ r, h.get? p = some { inst with reference := r }) ∧
      (JsonForm.Distinct h → h1 = h) := by
  obtain ⟨ht, -, -⟩ := xml_trees hd
  have hm := xml_mentions hd
  have hok := Rbxlx.decode_okHeap hd
  obtain ⟨j, h1, he⟩ := (C97_json_returns_iff rand fuel it h pos root (fun l hl => by cases forest_unique hl ht.1; exact hf)
    fun p a ha n v hv q hq => hm p a ha n v (Map.get?_of_mem (hok p a ha) hv) q hq).2 ⟨h, ht.1⟩
  obtain ⟨js, l, rfl, w1, w2, w3, w4, w5⟩ := C100_written rand fuel it pos he
  cases forest_unique w4 ht.1
  have href : ∀ p a, h1.get? p = some a → p ∈ h.map Prod.fst ∧ JsonForm.reference h1 p = a.reference := by
    intro p a ha
    obtain ⟨r, hr⟩ := w3 p a ha
    exact ⟨List.mem_map.2 ⟨_, Map.mem_of_get? hr, rfl⟩, by unfold JsonForm.reference; rw [ha]; rfl⟩
  refine ⟨js, h1, he, w1, ⟨fun p a ha => ?_, fun p q a b ha hb hab => ?_⟩, w2, w3, fun hdist => C100_unaltered rand fuel it hdist pos he⟩
  · obtain ⟨g1, g2⟩ := href p a ha
    rw [← g2]; exact (w5 p g1).1
  · obtain ⟨g1, g2⟩ := href p a ha
    obtain ⟨g3, g4⟩ := href q b hb
    exact (w5 p g1).2 q g3 (by rw [g2, g4]; exact hab)

/-! ### An example: the document of C70, with two Items that have the same referent -/

/-- What is decoded from the document. -/
def mixedHeap : Heap Nat :=
  [(0, ⟨str "A", str "R", false, [(str "Q", .int 2), (str "S", .sharedString (str "b")), (str "P", .reference (some 1))], [1]⟩),
   (1, ⟨str "B", str "R", false, [], []⟩)]

example : ∃ js h1, rootTo (genOf counter) 8 .id mixedHeap 0 ⟨[0], [(str "M", str "2")]⟩ =
    .ok (JsonForm.object [("rbxfile_version", JsonForm.whole 0), ("instances", .arr js)], h1) ∧ JsonForm.Distinct h1 ∧ h1 ≠ mixedHeap := by
  have hd : Rbxlx.decode goFloat false mixedDoc = .ok (mixedHeap, ⟨[0], [(str "M", str "2")]⟩) := by decide +kernel
  obtain ⟨js, h1, e, -, g, -⟩ := C114_converts hd counter 8 .id 0 (Fresh_mono (counter_fresh 7 (by omega)) (by decide) (Nat.le_refl _))
  refine ⟨js, h1, e, g, ?_⟩
  rintro rfl
  exact absurd (g.2 0 1 _ _ rfl rfl rfl) (by decide)

end Props
