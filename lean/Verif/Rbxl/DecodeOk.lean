import Verif.Rbxl.DecodeInv
/-!
# The codec decodes to proper maps
-/
namespace Rbxl
open Go Rbxfile Spec

/-- The properties of all instances are proper maps. -/
def ProperMaps (h : Heap Id) : Prop := ∀ p inst, h.get? p = some inst → inst.properties.Ok

theorem ProperMaps.set {h : Heap Id} (ho : ProperMaps h) {p : Id} {inst : Inst Id} (hi : inst.properties.Ok) :
    ProperMaps (h.set p inst) := by
  intro q i hq
  rw [Map.get?_set] at hq
  split at hq
  · cases hq; exact hi
  · exact ho q i hq

theorem instLoop_properMaps {c : InstChunk} {n : BitVec 32} : ∀ (refs : List Id) (i : Nat) (h h' : Heap Id), ProperMaps h →
    instLoop c n i refs h = .ok h' → ProperMaps h' := by
  intro refs
  induction refs with
  | nil => intro i h h' ho e; simp only [instLoop, Res.ok.injEq] at e; exact e ▸ ho
  | cons r refs ih =>
    intro i h h' ho e
    unfold instLoop at e
    split at e
    · cases e
    · split at e
      · cases e
      · split at e
        · split at e
          · cases e
          · exact ih _ _ _ (ho.set Map.ok_nil) e
        · exact ih _ _ _ (ho.set Map.ok_nil) e

theorem propLoop_properMaps {value : Nat → Res (Value Id)} {name : Bytes} : ∀ (ids : List Id) (k : Nat) (h h' : Heap Id),
    ProperMaps h → propLoop value name k ids h = .ok h' → ProperMaps h' := by
  intro ids
  induction ids with
  | nil => intro i h h' ho e; simp only [propLoop, Res.ok.injEq] at e; exact e ▸ ho
  | cons r ids ih =>
    intro k h h' ho e
    unfold propLoop at e
    split at e
    · cases e
    · cases e
    · split at e
      · cases e
      · rename_i inst hi
        exact ih _ _ _ (ho.set (Map.ok_set (ho _ _ hi) _ _)) e

theorem parentLoop_properMaps {ic : Nat} {n : BitVec 32} : ∀ (ls : List (Id × Id)) (i : Nat) (st : DecState),
    ProperMaps st.heap → ProperMaps (parentLoop ic n i ls st).1.heap := by
  intro ls
  induction ls with
  | nil => intro i st ho; exact ho
  | cons l ls ih =>
    intro i st ho
    obtain ⟨c, p⟩ := l
    unfold parentLoop
    split
    · exact ho
    · split
      · exact ih _ _ ho
      · split
        · exact ih _ _ ho
        · split
          · exact ih _ _ ho
          · rename_i inst hi
            exact ih _ _ (ho.set (inst := { inst with children := inst.children ++ [c] }) (show inst.properties.Ok from ho _ _ hi))

theorem codecStep_properMaps {quat : Quat} {f : FormatModel} {ic : Nat} {st : DecState} {b : Body} (ho : ProperMaps st.heap) :
    ProperMaps (codecStep quat f ic st b).1.heap := by
  cases b with
  | inst c =>
    simp only [codecStep]
    split
    · exact ho
    · split
      · exact ho
      · split
        · exact ho
        · exact ho
        · rename_i h' he
          split
          · exact ho
          · exact instLoop_properMaps _ _ _ _ ho he
  | prop c =>
    simp only [codecStep]
    split
    · exact ho
    · split
      · exact ho
      · split
        · exact ho
        · split
          · exact ho
          · split
            · exact ho
            · exact ho
            · rename_i h' he
              exact propLoop_properMaps _ _ _ _ ho he
  | parent c =>
    simp only [codecStep]
    split
    · exact ho
    · split
      · exact ho
      · exact parentLoop_properMaps _ _ _ ho
  | _ => exact ho

theorem codecLoop_properMaps {quat : Quat} {f : FormatModel} : ∀ (cs : List Chunk) (ic : Nat) (st : DecState),
    ProperMaps st.heap → ProperMaps (codecLoop quat f ic cs st).1.heap := by
  intro cs
  induction cs with
  | nil => intro ic st ho; exact ho
  | cons c cs ih =>
    intro ic st ho
    have hs := codecStep_properMaps (quat := quat) (f := f) (ic := ic) (b := c.body) ho
    unfold codecLoop
    rcases he : codecStep quat f ic st c.body with ⟨st', fl⟩
    rw [he] at hs
    cases fl <;> first | exact ih _ _ hs | exact hs

/-- Every instance that decoding returns has a proper map of properties. -/
theorem codecDecode_properMaps {quat : Quat} {f : FormatModel} {ws h root} (e : codecDecode quat f = (ws, .ok (h, root))) :
    ProperMaps h := by
  have hl := codecLoop_properMaps (quat := quat) (f := f) f.chunks 0 {} (by intro p i hp; cases hp)
  unfold codecDecode at e
  rcases he : codecLoop quat f 0 f.chunks {} with ⟨st, fl⟩
  rw [he] at e hl
  cases fl <;> simp at e <;> obtain ⟨-, rfl, -⟩ := e <;> exact hl

end Rbxl
