import Verif.Rbxlx.GrammarTags
/-!
# The documents that the XML parser accepts and the grammar
-/
namespace Rbxlx
open Go Spec

/-! ## Start tags -/

/-- The head of a tag as read from its start tag. -/
def startHead (x : StartSyntax) : Head := { startName := x.name, attr := x.attrs, empty := x.isClosed }

theorem attrs_length (e : Ending) (s : Bytes) : ∀ (as : List AttrSyntax), as.length ≤ (attrsSource as e ++ s).length
  | [] => by simp
  | a :: as => by
    have := attrs_length e s as
    have e1 : attrsSource (a :: as) e = a.source ++ attrsSource as e := by simp [attrsSource]
    have e2 : 0 < a.source.length := by simp [AttrSyntax.source, str]; omega
    rw [e1]
    simp only [List.length_append, List.length_cons] at *
    omega

theorem readStartTag_comment {t : Bytes} (h : ¬ str "-->" <:+: t) (s : Bytes) :
    readStartTag (str "<!--" ++ t ++ str "-->" ++ s) = .ok (.comment, { comment := true, text := t }, s) := by
  have e1 : str "<!--" = [60#8, 33#8, 45#8, 45#8] := by decide
  have hc := readComment_ok t s h
  rw [e1, List.append_assoc, List.append_assoc]
  simp only [List.cons_append, List.nil_append]
  unfold readStartTag
  simp only [hc, Res.ok_bind]

theorem readStartTag_ok {x : StartSyntax} (h : x.Ok) (s : Bytes) :
    readStartTag (x.source ++ s) = .ok (stateOf x.good, startHead x, s) := by
  have e1 : str "<" = [60#8] := by decide
  have e2 : str ">" = [62#8] := by decide
  have e3 : str "!--" = [33#8, 45#8, 45#8] := by decide
  cases x with
  | nameless junk =>
    obtain ⟨h1, h2⟩ := h
    simp only [StartSyntax.source, e1, e2, List.cons_append, List.nil_append, List.append_assoc]
    obtain ⟨c, t, hct, hc⟩ : ∃ c t, junk ++ 62#8 :: s = c :: t ∧ ¬ TagByte c := by
      cases junk with
      | nil => exact ⟨62#8, s, rfl, by unfold TagByte; decide⟩
      | cons b j => exact ⟨b, j ++ 62#8 :: s, rfl, h2 b j rfl⟩
    have hr := readName_ok (t := .tag) (n := []) (c := c) (s := t) rfl (isNameByte_tag_false.2 hc)
    rw [List.nil_append] at hr
    unfold readStartTag
    simp only
    rw [hct]
    split
    · rename_i heq; cases heq
    · rename_i heq
      have := (List.cons.inj heq).1
      subst this
      exact absurd (by unfold TagByte; decide) hc
    · rename_i heq
      have := (List.cons.inj heq).1
      subst this
      exact absurd (by unfold TagByte; decide) hc
    · rw [hr]
      simp only [Res.ok_bind, if_true]
      rw [← hct, ignoreStartTag_ok h1]
      rfl
  | named n as e =>
    obtain ⟨h1, h2, h3, h4, h5, h6, h7⟩ := h
    simp only [StartSyntax.source, e1, List.cons_append, List.nil_append, List.append_assoc]
    obtain ⟨c, t, hct, hc⟩ : ∃ c t, attrsSource as e ++ s = c :: t ∧ ¬ TagByte c := by
      have hne : attrsSource as e ≠ [] := by
        intro h0
        simp only [attrsSource, List.append_eq_nil_iff] at h0
        have := h0.2
        cases e <;> simp [Ending.source, str] at this
      cases ha : attrsSource as e with
      | nil => exact absurd ha hne
      | cons c t => rw [ha] at h7; exact ⟨c, t ++ s, rfl, h7⟩
    have hr := readName_ok (t := .tag) (n := n) (c := c) (s := t)
      (List.all_eq_true.2 (fun b hb => (isNameByte_tag b).2 (h2 b hb))) (isNameByte_tag_false.2 hc)
    have hra := readAttrs_ok e h6 s as ((attrsSource as e ++ s).length + 1) { startName := n } h5
      (Nat.lt_succ_of_le (attrs_length e s as))
    unfold readStartTag
    simp only
    split
    · rename_i heq; simp [h1] at heq
    · rename_i u heq
      cases n with
      | nil => exact absurd rfl h1
      | cons d n => exact absurd (by rw [(List.cons.inj heq).1]) (h3 n)
    · rename_i u heq
      exfalso
      rw [hct] at heq
      apply h4
      rw [e3]
      have hdash : ∀ (b : Byte), b = 33#8 ∨ b = 45#8 → TagByte b := by
        rintro b (rfl | rfl) <;> unfold TagByte <;> decide
      match n, heq, h1 with
      | [], _, h1 => exact absurd rfl h1
      | [x], heq, _ =>
        simp only [List.cons_append, List.nil_append, List.cons.injEq] at heq
        exact absurd (hdash c (.inr heq.2.1)) hc
      | [x, y], heq, _ =>
        simp only [List.cons_append, List.nil_append, List.cons.injEq] at heq
        exact absurd (hdash c (.inr heq.2.2.1)) hc
      | x :: y :: z :: n, heq, _ =>
        simp only [List.cons_append, List.cons.injEq] at heq
        obtain ⟨rfl, rfl, rfl, -⟩ := heq
        exact ⟨n, rfl⟩
    · rw [hct, hr]
      simp only [Res.ok_bind]
      rw [if_neg h1, ← hct, hra]
      simp [headAfter, startHead, StartSyntax.good, StartSyntax.name, StartSyntax.attrs, StartSyntax.isClosed]

/-- What is read as a start tag is one, or a comment. -/
theorem readStartTag_sound {s : Bytes} {st : StartState} {h : Head} {r : Bytes} (hr : readStartTag s = .ok (st, h, r)) :
    (∃ t, ¬ str "-->" <:+: t ∧ s = str "<!--" ++ t ++ str "-->" ++ r ∧ st = .comment ∧
      h = { comment := true, text := t }) ∨
    (∃ x : StartSyntax, x.Ok ∧ s = x.source ++ r ∧ st = stateOf x.good ∧ h = startHead x) := by
  have e1 : str "<" = [60#8] := by decide
  have e2 : str ">" = [62#8] := by decide
  have e3 : str "!--" = [33#8, 45#8, 45#8] := by decide
  have e4 : str "<!--" = [60#8, 33#8, 45#8, 45#8] := by decide
  unfold readStartTag at hr
  split at hr
  · cases hr
  · rename_i s1
    split at hr
    · cases hr
    · cases hr
    · rename_i s2
      obtain ⟨⟨t, s3⟩, h1, h2⟩ := Res.bind_eq_ok.1 hr
      cases h2
      obtain ⟨h3, h4⟩ := readComment_sound _ _ _ h1
      exact .inl ⟨t, h3, by rw [h4, e4]; simp, rfl, rfl⟩
    · rename_i hne h47 hcom
      right
      obtain ⟨⟨n, s2⟩, h1, h2⟩ := Res.bind_eq_ok.1 hr
      obtain ⟨n1, n2, c, u, rfl, n3⟩ := readName_sound h1
      have hc := isNameByte_tag_false.1 n3
      simp only at h2
      split at h2
      · rename_i hn
        subst hn
        obtain ⟨s3, h3, h4⟩ := Res.bind_eq_ok.1 h2
        cases h4
        obtain ⟨junk, hj, hj2⟩ := ignoreStartTag_sound h3
        rw [List.nil_append] at n1
        refine ⟨.nameless junk, ⟨hj, ?_⟩, by rw [n1, hj2]; simp [StartSyntax.source, e1, e2], rfl, rfl⟩
        rintro b t rfl
        rw [← (List.cons.inj hj2).1]
        exact hc
      · rename_i hn
        obtain ⟨as, e, i1, i2, i3, i4, i5⟩ := readAttrs_sound _ _ _ _ _ _ h2
        refine ⟨.named n as e, ⟨hn, fun b hb => (isNameByte_tag b).1 (n2 b hb), ?_, ?_, i1, i2, ?_⟩, ?_, i4, ?_⟩
        · rintro t rfl
          exact h47 _ n1
        · rintro ⟨t, rfl⟩
          rw [e3] at n1
          exact hcom _ n1
        · cases ha : attrsSource as e with
          | nil =>
            simp only [attrsSource, List.append_eq_nil_iff] at ha
            have := ha.2
            cases e <;> simp [Ending.source, str] at this
          | cons d l =>
            rw [ha] at i3
            show ¬ TagByte d
            rw [List.cons_append] at i3
            rw [← (List.cons.inj i3).1]
            exact hc
        · rw [n1, i3]; simp [StartSyntax.source, e1]
        · rw [i5]
          simp [headAfter, startHead, StartSyntax.name, StartSyntax.attrs, StartSyntax.isClosed]
  · cases hr

/-! ## The root -/

theorem attrValue_iff (name v : Bytes) : ∀ (attr : List (Bytes × Bytes)), attrValue attr name = some v ↔
    ∃ before after, attr = before ++ (name, v) :: after ∧ ∀ a ∈ before, a.1 ≠ name
  | [] => by simp [attrValue]
  | a :: rest => by
    rw [attrValue]
    by_cases ha : a.1 = name
    · rw [if_pos ha]
      constructor
      · intro h
        cases h
        exact ⟨[], rest, by rw [← ha]; rfl, by simp⟩
      · rintro ⟨before, after, h1, h2⟩
        cases before with
        | nil => cases h1; rfl
        | cons b bs =>
          cases h1
          exact absurd ha (h2 _ (by simp))
    · rw [if_neg ha, attrValue_iff name v rest]
      constructor
      · rintro ⟨before, after, rfl, h2⟩
        refine ⟨a :: before, after, rfl, ?_⟩
        intro b hb
        rcases List.mem_cons.1 hb with rfl | hb
        · exact ha
        · exact h2 b hb
      · rintro ⟨before, after, h1, h2⟩
        cases before with
        | nil => cases h1; exact absurd rfl ha
        | cons b bs =>
          cases h1
          exact ⟨bs, after, rfl, fun b hb => h2 b (by simp [hb])⟩

theorem isDigit_false {d : Byte} : IsDigit false d ↔ 48 ≤ d.toNat ∧ d.toNat ≤ 57 := by
  simp [IsDigit, digitIn]

theorem digitIn_false {d : Byte} (h : IsDigit false d) : (digitIn false d).getD 0 = d.toNat - 48 := by
  rw [isDigit_false] at h
  simp [digitIn, h]

theorem parseUintLoop_iff (max : Nat) : ∀ (ds : Bytes) (n m : Nat),
    parseUintLoop max n ds = (m, .none) ↔
      (∀ d ∈ ds, IsDigit false d) ∧ m = n * 10 ^ ds.length + numberOf false ds ∧ (ds ≠ [] → m ≤ max)
  | [], n, m => by simp [parseUintLoop, numberOf, eq_comm]
  | d :: ds, n, m => by
    rw [parseUintLoop]
    by_cases hd : 48 ≤ d.toNat ∧ d.toNat ≤ 57
    · have hd' := isDigit_false.2 hd
      have key : (10 * n + (d.toNat - 48)) * 10 ^ ds.length + numberOf false ds =
          n * 10 ^ (d :: ds).length + numberOf false (d :: ds) := by
        rw [numberOf, digitIn_false hd', List.length_cons, Nat.pow_succ]
        simp only [Bool.false_eq_true, if_false]
        generalize 10 ^ ds.length = p
        rw [Nat.add_mul, Nat.mul_comm p 10, ← Nat.mul_assoc, Nat.mul_comm 10 n]
        omega
      rw [if_pos hd]
      by_cases hm : max < 10 * n + (d.toNat - 48)
      · simp only [hm, if_true]
        constructor
        · intro h; cases h
        · rintro ⟨-, h2, h3⟩
          exfalso
          rw [← key] at h2
          have h4 := h3 (by simp)
          have : 10 * n + (d.toNat - 48) ≤ (10 * n + (d.toNat - 48)) * 10 ^ ds.length :=
            Nat.le_mul_of_pos_right _ (Nat.pow_pos (by decide))
          omega
      · simp only [hm, if_false]
        rw [parseUintLoop_iff max ds _ m, key]
        constructor
        · rintro ⟨h1, h2, h3⟩
          refine ⟨?_, h2, ?_⟩
          · intro x hx
            rcases List.mem_cons.1 hx with rfl | hx
            · exact hd'
            · exact h1 x hx
          · intro _
            cases ds with
            | nil =>
              rw [h2, ← key]
              simp [numberOf]
              omega
            | cons y ys => exact h3 (by simp)
        · rintro ⟨h1, h2, h3⟩
          exact ⟨fun x hx => h1 x (by simp [hx]), h2, fun _ => h3 (by simp)⟩
    · rw [if_neg hd]
      constructor
      · intro h; cases h
      · rintro ⟨h1, -⟩
        exact absurd (isDigit_false.1 (h1 d (by simp))) hd

theorem parseInt_at_least (k : Nat) (hk : 0 < k) (v : Bytes) :
    (∃ n : Int, parseInt 32 v = (n, .none) ∧ (k : Int) ≤ n) ↔
      ∃ ds, (v = ds ∨ v = 43#8 :: ds) ∧ ds ≠ [] ∧ (∀ d ∈ ds, IsDigit false d) ∧
        k ≤ numberOf false ds ∧ numberOf false ds < 2 ^ 31 := by
  have pos : ∀ ds : Bytes, (∃ n : Int,
      (match parseUint 32 ds with
      | (_, .syntax) => ((0 : Int), NumErr.syntax)
      | (un, _) =>
        if !false && decide (2 ^ (32 - 1) ≤ un) then (((2 ^ (32 - 1) : Nat) : Int) - 1, .range)
        else if false && decide (2 ^ (32 - 1) < un) then (-((2 ^ (32 - 1) : Nat) : Int), .range)
        else if false = true then (-(un : Int), .none) else ((un : Int), .none)) = (n, .none) ∧ (k : Int) ≤ n) ↔
      ds ≠ [] ∧ (∀ d ∈ ds, IsDigit false d) ∧ k ≤ numberOf false ds ∧ numberOf false ds < 2 ^ 31 := by
    intro ds
    constructor
    · rintro ⟨n, h1, h2⟩
      split at h1
      · cases h1
      · rename_i un er hne hp
        simp only [Bool.not_false, Bool.true_and, decide_eq_true_eq, Bool.false_and, Bool.false_eq_true, if_false] at h1
        split at h1
        · cases h1
        · rename_i hlt
          cases h1
          have hn : er = .none := by
            cases er with
            | none => rfl
            | «syntax» => exact absurd rfl hne
            | range =>
              exfalso
              apply hlt
              unfold parseUint at hp
              split at hp
              · cases hp
              · have : ∀ (ds : Bytes) (n : Nat), parseUintLoop (2 ^ 32 - 1) n ds = (un, .range) → un = 2 ^ 32 - 1 := by
                  intro ds
                  induction ds with
                  | nil => intro n h; cases h
                  | cons d ds ih =>
                    intro n h
                    rw [parseUintLoop] at h
                    split at h
                    · simp only at h
                      split at h
                      · cases h; rfl
                      · exact ih _ h
                    · cases h
                rw [this _ _ hp]; decide
          subst hn
          unfold parseUint at hp
          split at hp
          · cases hp
          · rename_i hne'
            obtain ⟨g1, g2, g3⟩ := (parseUintLoop_iff _ _ _ _).1 hp
            rw [Nat.zero_mul, Nat.zero_add] at g2
            refine ⟨hne', g1, by omega, by omega⟩
    · rintro ⟨h1, h2, h3, h4⟩
      have hp : parseUint 32 ds = (numberOf false ds, .none) := by
        rw [parseUint, if_neg h1]
        exact (parseUintLoop_iff _ _ _ _).2 ⟨h2, by simp, fun _ => by omega⟩
      refine ⟨numberOf false ds, ?_, by omega⟩
      rw [hp]
      simp only [Bool.not_false, Bool.true_and, Bool.false_and, Bool.false_eq_true, if_false]
      rw [if_neg (by simp only [decide_eq_true_eq]; omega)]
  by_cases hv : v = []
  · subst hv
    constructor
    · rintro ⟨n, h, -⟩; simp [parseInt] at h
    · rintro ⟨ds, h | h, h2, -⟩
      · exact absurd h.symm h2
      · cases h
  · by_cases hp : ∃ t, v = 43#8 :: t
    · obtain ⟨t, rfl⟩ := hp
      refine Iff.trans (Iff.trans ?_ (pos t)) ?_
      · rfl
      · constructor
        · intro h; exact ⟨t, .inr rfl, h⟩
        · rintro ⟨ds, h | h, h2⟩
          · exfalso
            subst h
            have := isDigit_false.1 (h2.2.1 43#8 (by simp))
            revert this; decide
          · cases h; exact h2
    · by_cases hm : ∃ t, v = 45#8 :: t
      · obtain ⟨t, rfl⟩ := hm
        constructor
        · rintro ⟨n, h1, h2⟩
          exfalso
          simp only [parseInt, hv, if_false] at h1
          split at h1
          · cases h1
          · simp only [Bool.not_true, Bool.false_and, Bool.true_and, Bool.false_eq_true, if_false, if_true,
              decide_eq_true_eq] at h1
            split at h1
            · cases h1
            · cases h1; omega
        · rintro ⟨ds, h | h, h2⟩
          · exfalso
            subst h
            have := isDigit_false.1 (h2.2.1 45#8 (by simp))
            revert this; decide
          · cases h
      · have hbody := parseInt_pos (bits := 32) hv (fun {c t} h =>
          ⟨fun e => hp ⟨t, by rw [h, e]⟩, fun e => hm ⟨t, by rw [h, e]⟩⟩)
        refine Iff.trans (Iff.trans ?_ (pos v)) ?_
        · rw [hbody]
          rcases parseUint 32 v with ⟨un, er⟩
          cases er <;> simp
        · constructor
          · intro h; exact ⟨v, .inl rfl, h⟩
          · rintro ⟨ds, rfl | h, h2⟩
            · exact h2
            · exact absurd ⟨ds, h⟩ hp

theorem checkRoot_iff (h : Head) : checkRoot h = .ok () ↔
    h.startName = str "roblox" ∧ ∃ v, attrValue h.attr (str "version") = some v ∧ VersionOk v := by
  have hv : ∀ v, VersionOk v ↔ ∃ n : Int, parseInt 32 v = (n, .none) ∧ 4 ≤ n := fun v =>
    (parseInt_at_least 4 (by decide) v).symm
  unfold checkRoot
  by_cases hn : h.startName = str "roblox"
  · simp only [hn, ne_eq, not_true_eq_false, if_false, true_and]
    cases ha : attrValue h.attr (str "version") with
    | none => simp
    | some v =>
      simp only [Option.some.injEq, exists_eq_left', hv]
      constructor
      · intro h'
        split at h'
        · rename_i n hp
          split at h'
          · cases h'
          · exact ⟨n, hp, by omega⟩
        · cases h'
      · rintro ⟨n, hp, h4⟩
        rw [hp]
        simp only
        rw [if_neg (by omega)]
  · simp [hn]

theorem checkRoot_start (x : StartSyntax) : checkRoot (startHead x) = .ok () ↔ x.isRoot := by
  rw [checkRoot_iff]
  constructor
  · rintro ⟨h1, v, h2, h3⟩
    obtain ⟨b, a, h4, h5⟩ := (attrValue_iff _ _ _).1 h2
    exact ⟨h1, b, v, a, h4, h5, h3⟩
  · rintro ⟨h1, b, v, a, h4, h5, h3⟩
    exact ⟨h1, v, (attrValue_iff _ _ _).2 ⟨b, a, h4, h5⟩, h3⟩

end Rbxlx
