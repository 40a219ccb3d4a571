import Verif.Spec.Reader
/-!
# Reading from an `io.Reader`: `io.ReadFull` and `io.ReadAll` of the Go library

The loops are not bounded, as a reader may return nothing any number of times; the first argument is the number of
calls of `Read` after which the model gives up, with `none`.
-/
namespace Go
open Spec

variable {σ ε : Type} (R : Reader σ ε) {e : Stop ε}

/-- `io.ReadFull` of `need` bytes; `io.ErrUnexpectedEOF` is not distinguished from `io.EOF`. An error that comes with the
last of the bytes is dropped. -/
def readFull : Nat → σ → Nat → Option (σ × Bytes × Option (Stop ε))
  | _, s, 0 => some (s, [], none)
  | 0, _, _ + 1 => none
  | fuel + 1, s, need + 1 =>
    match R.read s (need + 1) with
    | (s', d, some x) => some (s', d, if d.length = need + 1 then none else some x)
    | (s', d, none) => (readFull fuel s' (need + 1 - d.length)).map fun r => (r.1, d ++ r.2.1, r.2.2)

/-- `io.ReadAll`, with a buffer that has room for `grow n + 1` more bytes when `n` bytes have been read. -/
def readAll (grow : Nat → Nat) : Nat → σ → Nat → Option (σ × Bytes × Option ε)
  | 0, _, _ => none
  | fuel + 1, s, n =>
    match R.read s (grow n + 1) with
    | (s', d, some .eof) => some (s', d, none)
    | (s', d, some (.fail x)) => some (s', d, some x)
    | (s', d, none) => (readAll grow fuel s' (n + d.length)).map fun r => (r.1, d ++ r.2.1, r.2.2)

variable {R}

theorem dead_yields {s : σ} (h : Dead R e s) : Yields R e s [] := by
  obtain ⟨P, hs, hP⟩ := h
  have key : ∀ n, 0 < n → ∃ s', R.read s n = (s', [], some e) ∧ P s' := hP s hs
  refine .mk ?_ ?_ ?_
  · intro n hn h; obtain ⟨s', h1, -⟩ := key n hn; rw [h1] at h; cases h
  · intro n hn h; obtain ⟨s', h1, -⟩ := key n hn; rw [h1] at h; cases h
  · intro n hn x h
    obtain ⟨s', h1, h2⟩ := key n hn
    rw [h1] at h ⊢
    cases h
    exact ⟨rfl, rfl, P, h2, hP⟩

theorem readFull_yields {s : σ} {out : Bytes} (h : Yields R e s out) : ∀ need : Nat, ∃ N s', (∀ fuel, N ≤ fuel →
    readFull R fuel s need = some (s', out.take need, if need ≤ out.length then none else some e)) ∧ Yields R e s' (out.drop need) := by
  induction h with
  | @mk s out h1 h2 h3 ih =>
    intro need
    cases need with
    | zero =>
      refine ⟨0, s, ?_, ?_⟩
      · intro fuel _; cases fuel <;> simp [readFull]
      · exact .mk h1 h2 h3
    | succ need =>
      have hok := R.read_ok s (need + 1)
      cases hx : (R.read s (need + 1)).2.2 with
      | some x =>
        obtain ⟨rfl, hd, hdead⟩ := h3 _ (Nat.succ_pos _) x hx
        refine ⟨1, (R.read s (need + 1)).1, ?_, ?_⟩
        · intro fuel hf
          obtain ⟨fuel, rfl⟩ : ∃ k, fuel = k + 1 := ⟨fuel - 1, by omega⟩
          rw [readFull]
          rcases hr : R.read s (need + 1) with ⟨s', d, y⟩
          rw [hr] at hx hd hok
          simp only at hx hd hok
          subst hx hd
          simp only
          rw [List.take_of_length_le hok]
          by_cases h : d.length = need + 1
          · rw [if_pos h, if_pos (by omega)]
          · rw [if_neg h, if_neg (by omega)]
        · have := dead_yields hdead
          rw [List.drop_of_length_le (by rw [← hd]; exact hok)]
          exact this
      | none =>
        have hp := h1 _ (Nat.succ_pos _) hx
        obtain ⟨N, s', h4, h5⟩ := ih _ (Nat.succ_pos _) hx (need + 1 - (R.read s (need + 1)).2.1.length)
        rcases hr : R.read s (need + 1) with ⟨s1, d, y⟩
        rw [hr] at hx hp h4 h5 hok
        simp only at hx hp h4 h5 hok
        subst hx
        obtain ⟨t, rfl⟩ := hp
        rw [List.drop_left] at h4 h5
        refine ⟨N + 1, s', ?_, ?_⟩
        · intro fuel hf
          obtain ⟨fuel, rfl⟩ : ∃ k, fuel = k + 1 := ⟨fuel - 1, by omega⟩
          rw [readFull, hr]
          simp only
          rw [h4 fuel (by omega)]
          simp only [Option.map_some, List.take_append, List.length_append]
          rw [List.take_of_length_le hok]
          simp only [Option.some.injEq, Prod.mk.injEq, true_and]
          by_cases h : need + 1 ≤ d.length + t.length
          · rw [if_pos h, if_pos (by omega)]
          · rw [if_neg h, if_neg (by omega)]
        · rw [List.drop_append, List.drop_of_length_le hok]
          exact h5

/-- What `io.ReadAll` reports. -/
def Stop.err : Stop ε → Option ε
  | .eof => none
  | .fail x => some x

theorem readAll_yields (grow : Nat → Nat) {s : σ} {out : Bytes} (h : Yields R e s out) : ∀ n : Nat, ∃ N s', (∀ fuel, N ≤ fuel →
    readAll R grow fuel s n = some (s', out, Stop.err e)) ∧ Yields R e s' [] := by
  induction h with
  | @mk s out h1 h2 h3 ih =>
    intro n
    cases hx : (R.read s (grow n + 1)).2.2 with
    | some x =>
      obtain ⟨rfl, hd, hdead⟩ := h3 _ (Nat.succ_pos _) x hx
      refine ⟨1, (R.read s (grow n + 1)).1, ?_, dead_yields hdead⟩
      intro fuel hf
      obtain ⟨fuel, rfl⟩ : ∃ k, fuel = k + 1 := ⟨fuel - 1, by omega⟩
      rw [readAll]
      rcases hr : R.read s (grow n + 1) with ⟨s', d, y⟩
      rw [hr] at hx hd
      simp only at hx hd
      subst hx hd
      cases x <;> rfl
    | none =>
      have hp := h1 _ (Nat.succ_pos _) hx
      obtain ⟨N, s', h4, h5⟩ := ih _ (Nat.succ_pos _) hx (n + (R.read s (grow n + 1)).2.1.length)
      rcases hr : R.read s (grow n + 1) with ⟨s1, d, y⟩
      rw [hr] at hx hp h4
      simp only at hx hp h4
      subst hx
      obtain ⟨t, rfl⟩ := hp
      rw [List.drop_left] at h4
      refine ⟨N + 1, s', ?_, h5⟩
      intro fuel hf
      obtain ⟨fuel, rfl⟩ : ∃ k, fuel = k + 1 := ⟨fuel - 1, by omega⟩
      rw [readAll, hr]
      simp only
      rw [h4 fuel (by omega)]
      rfl

end Go
