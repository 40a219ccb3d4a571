import Batteries.Data.List.Perm
import Verif.Props.XmlTreeExamples
/-!
# A random source that does not repeat itself

The hypothesis `Fresh` of C29, C30, C65 and C72 is met, for the references of the package (`genOf`).
-/
namespace Props
open Go Rbxfile

theorem genOf_counter (k : Nat) : genOf counter k = str "RBX" ++ hexDigits hexUpper
    [0#8, 0#8, 0#8, 0#8, 0#8, 0#8, 64#8, 0#8, 128#8, 0#8, 0#8, 0#8, 0#8, 0#8, BitVec.ofNat 8 (k / 256), BitVec.ofNat 8 k] := by
  have key : ∀ x y : BitVec 8, generateReference (List.replicate 14 0#8 ++ [x, y]) = str "RBX" ++ hexDigits hexUpper
      [0#8, 0#8, 0#8, 0#8, 0#8, 0#8, (0#8 &&& 0x0F#8) ||| 0x40#8, 0#8, (0#8 &&& 0x3F#8) ||| 0x80#8, 0#8, 0#8, 0#8, 0#8, 0#8, x, y] := by
    intro x y
    unfold generateReference generateUUID
    rw [hexLoop_eq _ _ _ (by simp)]
    rfl
  exact key _ _

theorem hexPair_inj : ∀ a b : Fin 256, hexAt hexUpper (BitVec.ofFin a >>> 4) = hexAt hexUpper (BitVec.ofFin b >>> 4) →
    hexAt hexUpper (BitVec.ofFin a &&& 0x0F#8) = hexAt hexUpper (BitVec.ofFin b &&& 0x0F#8) → a = b := by
  have inj : ∀ a b : Fin 16, hexAt hexUpper (BitVec.ofNat 8 a.val) = hexAt hexUpper (BitVec.ofNat 8 b.val) → a = b := by
    decide +kernel
  have split : ∀ a : Fin 256, (BitVec.ofFin a >>> 4 : BitVec 8) = BitVec.ofNat 8 (a.val / 16) ∧
      (BitVec.ofFin a &&& 0x0F#8 : BitVec 8) = BitVec.ofNat 8 (a.val % 16) := by decide +kernel
  intro a b h1 h2
  rw [(split a).1, (split b).1] at h1
  rw [(split a).2, (split b).2] at h2
  have e1 := inj ⟨a.val / 16, by omega⟩ ⟨b.val / 16, by omega⟩ h1
  have e2 := inj ⟨a.val % 16, by omega⟩ ⟨b.val % 16, by omega⟩ h2
  simp only [Fin.mk.injEq] at e1 e2
  exact Fin.ext (by omega)

theorem counter_inj {i j : Nat} (h : genOf counter i = genOf counter j) : i % 65536 = j % 65536 := by
  rw [genOf_counter, genOf_counter] at h
  simp only [hexDigits, List.flatMap_cons, List.flatMap_nil, List.append_nil, List.append_cancel_left_eq,
    List.cons_append, List.nil_append, List.cons.injEq, and_true, true_and] at h
  obtain ⟨h1, h2, h3, h4⟩ := h
  have e1 := hexPair_inj (BitVec.ofNat 8 (i / 256)).toFin (BitVec.ofNat 8 (j / 256)).toFin h1 h2
  have e2 := hexPair_inj (BitVec.ofNat 8 i).toFin (BitVec.ofNat 8 j).toFin h3 h4
  have e1' := congrArg Fin.val e1
  have e2' := congrArg Fin.val e2
  simp only [BitVec.val_toFin, BitVec.toNat_ofNat] at e1' e2'
  omega

/-- A source that counts has a fresh reference among any `n + 1` when `n` are taken. -/
theorem counter_fresh (n : Nat) (hn : n < 65536) : Fresh (genOf counter) n (n + 1) := by
  intro s k hs
  false_or_by_contra
  rename_i hall
  have hsub : ∀ j, j < n + 1 → genOf counter (k + j) ∈ s := by
    intro j hj
    false_or_by_contra
    rename_i h
    exact hall ⟨j, hj, h⟩
  have hnd : ((List.range (n + 1)).map fun j => genOf counter (k + j)).Nodup := by
    unfold List.Nodup
    rw [List.pairwise_map]
    refine List.nodup_range.imp_of_mem ?_
    intro a b ha hb hab e
    rw [List.mem_range] at ha hb
    have := counter_inj e
    omega
  have hle := (List.subperm_of_subset hnd (l₂ := s) (by
    intro x hx
    obtain ⟨j, hj, rfl⟩ := List.mem_map.1 hx
    exact hsub j (List.mem_range.1 hj))).length_le
  simp at hle
  omega

theorem Fresh_mono {gen : Nat → Bytes} {n m fuel fuel' : Nat} (h : Fresh gen n fuel) (hm : m ≤ n) (hf : fuel ≤ fuel') :
    Fresh gen m fuel' := by
  intro s k hs
  obtain ⟨j, hj, h1⟩ := h s k (by omega)
  exact ⟨j, by omega, h1⟩

end Props
