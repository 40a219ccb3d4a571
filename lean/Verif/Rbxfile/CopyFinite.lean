import Verif.Rbxfile.CopyMain
/-!
# Only finite structures of instances can be copied
-/
namespace Rbxfile
open Go Spec

variable {gen : Nat → Bytes} {fuel : Nat} {it : Iter} {h : Heap Nat} {n0 : Nat}

/-- Below `n0`, the heap has only instances that it had at first, with other references. -/
def Back (h : Heap Nat) (n0 : Nat) (h' : Heap Nat) : Prop :=
  ∀ q < n0, ∀ a, h'.get? q = some a → ∃ r, h.get? q = some { a with reference := r }

theorem Back.set {h' : Heap Nat} (hb : Back h n0 h') {c : Nat} (hc : n0 ≤ c) (b : Inst Nat) : Back h n0 (h'.set c b) := by
  intro q hq a ha
  rw [Map.get?_set_ne _ _ (by omega)] at ha
  exact hb q hq a ha

theorem Back.getRef {st st' : RefState Nat} (hb : Back h n0 st.heap) (hgen : ∀ k, isEmptyReference (gen k) = false) {p : Option Nat}
    {r : Bytes} (e : getRef gen fuel st p = .ok (r, st')) : Back h n0 st'.heap := by
  cases p with
  | none =>
    simp only [Rbxfile.getRef, Res.ok.injEq, Prod.mk.injEq] at e
    rw [← e.2]; exact hb
  | some p =>
    have sp := getRef_spec hgen e
    obtain ⟨a, ha, ha'⟩ := sp.self
    intro q hq b hb'
    by_cases hqp : q = p
    · subst hqp
      rw [ha'] at hb'; cases hb'
      obtain ⟨r', hr'⟩ := hb _ hq a ha
      exact ⟨r', hr'⟩
    · rw [sp.others q hqp] at hb'
      exact hb q hq b hb'

theorem copyProps_back (hgen : ∀ k, isEmptyReference (gen k) = false) {c : Nat} (hc : n0 ≤ c) :
    ∀ {l : List (Bytes × Value Nat)} {s s' : CState}, Back h n0 s.st.heap → copyProps gen fuel c l s = .ok s' →
      Back h n0 s'.st.heap ∧ s'.next = s.next
  | [], s, s', hb, e => by simp only [copyProps, Res.ok.injEq] at e; subst e; exact ⟨hb, rfl⟩
  | (name, v) :: l, s, s', hb, e => by
    by_cases hv : ∃ q, v = .reference q
    · obtain ⟨q, rfl⟩ := hv
      simp only [copyProps] at e
      obtain ⟨⟨r, st⟩, e1, e⟩ := Res.bind_eq_ok.1 e
      have := copyProps_back hgen hc (hb.getRef hgen e1) e
      exact this
    · have hv' : ∀ q, v ≠ .reference q := fun q e => hv ⟨q, e⟩
      rw [copyProps_ref hv'] at e
      have hu : Back h n0 (s.update c fun b => { b with properties := b.properties.set name v.copy }).st.heap ∧
          (s.update c fun b => { b with properties := b.properties.set name v.copy }).next = s.next := by
        unfold CState.update
        split
        · exact ⟨hb, rfl⟩
        · exact ⟨hb.set hc _, rfl⟩
      have := copyProps_back hgen hc hu.1 e
      exact ⟨this.1, this.2.trans hu.2⟩

theorem copyList_finite (hgen : ∀ k, isEmptyReference (gen k) = false) (hch : ∀ p a, h.get? p = some a → ∀ c ∈ a.children, c < n0) :
    ∀ (depth : Nat) (ps : List Nat) (s s' : CState) (cs : List Nat), (∀ p ∈ ps, p < n0) → Back h n0 s.st.heap → n0 ≤ s.next →
    copyList (copyInst gen fuel it depth) ps s = .ok (cs, s') →
    Back h n0 s'.st.heap ∧ n0 ≤ s'.next ∧ ∃ l : Map Nat (Inst Nat), Forest h ps l := by
  intro depth
  induction depth with
  | zero =>
    intro ps s s' cs _ hb hn e
    cases ps with
    | nil =>
      simp only [copyList, Res.ok.injEq, Prod.mk.injEq] at e
      rw [← e.2]; exact ⟨hb, hn, [], .nil⟩
    | cons p ps => simp only [copyList, copyInst] at e; cases e
  | succ depth ihd =>
    intro ps
    induction ps with
    | nil =>
      intro s s' cs _ hb hn e
      simp only [copyList, Res.ok.injEq, Prod.mk.injEq] at e
      rw [← e.2]; exact ⟨hb, hn, [], .nil⟩
    | cons p ps ih =>
      intro s s' cs hps hb hn e
      rw [copyList] at e
      obtain ⟨⟨c, s1⟩, e1, e⟩ := Res.bind_eq_ok.1 e
      obtain ⟨⟨cs', s2⟩, e2, e⟩ := Res.bind_eq_ok.1 e
      simp only [Res.pure_eq, Res.ok.injEq, Prod.mk.injEq] at e
      obtain ⟨-, rfl⟩ := e
      rw [copyInst] at e1
      split at e1
      · cases e1
      · rename_i inst hp
        obtain ⟨⟨r, st⟩, e3, e1⟩ := Res.bind_eq_ok.1 e1
        obtain ⟨s3, e4, e1⟩ := Res.bind_eq_ok.1 e1
        obtain ⟨⟨cc, s4⟩, e5, e1⟩ := Res.bind_eq_ok.1 e1
        simp only [Res.pure_eq, Res.ok.injEq, Prod.mk.injEq] at e1
        obtain ⟨-, rfl⟩ := e1
        obtain ⟨r0, hr0⟩ := hb p (hps p (by simp)) inst hp
        obtain ⟨b3, n3⟩ := copyProps_back hgen hn ((hb.getRef hgen e3).set hn _) e4
        simp only at n3
        obtain ⟨b4, n4, lb, f4⟩ := ihd _ _ _ _ (hch p _ hr0) b3 (by omega) e5
        have hu : Back h n0 (s4.update s.next fun b => { b with children := cc }).st.heap ∧
            n0 ≤ (s4.update s.next fun b => { b with children := cc }).next := by
          unfold CState.update
          split
          · exact ⟨b4, n4⟩
          · exact ⟨b4.set hn _, n4⟩
        obtain ⟨b5, n5, lr, f5⟩ := ih _ _ _ (fun p hp => hps p (by simp [hp])) hu.1 hu.2 e2
        exact ⟨b5, n5, _, .cons hr0 f4 f5⟩

theorem Back.refl (h : Heap Nat) (n0 : Nat) : Back h n0 h := fun _ _ a ha => ⟨a.reference, ha⟩

end Rbxfile
