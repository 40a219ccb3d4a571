import Verif.Json.Read
import Verif.Json.FormRead
import Verif.Rbxl.NotTree
/-!
# The root that is read from JSON
-/
namespace Json
open Go Rbxfile Spec Rbxlx

variable {O : Overflow} {it : Iter}

theorem applyOps_props : ∀ (ops : Ops) (h : Heap Nat) (q : Nat) {i : Inst Nat}, h.get? q = some i → i.properties.Ok →
    ∃ j, (applyOps h ops).get? q = some j ∧ j.properties.Ok ∧
    ∀ m v, j.properties.get? m = some v → i.properties.get? m = some v ∨ (q, m, v) ∈ ops
  | [], h, q, i, hi, ho => ⟨i, hi, ho, fun _ _ h => .inl h⟩
  | (p, n, w) :: ops, h, q, i, hi, ho => by
    obtain ⟨i1, h1, -, g1⟩ := setProperty_get h p n w q hi
    have hok : i1.properties.Ok := by
      unfold setProperty at h1
      simp only at h1
      split at h1
      · rw [hi] at h1; cases h1; exact ho
      · rename_i i' hi'
        rw [Map.get?_set] at h1
        split at h1
        · rename_i e
          subst e
          rw [hi] at hi'
          cases hi'
          cases h1
          exact Map.ok_set ho _ _
        · rw [hi] at h1; cases h1; exact ho
    obtain ⟨j, h2, o2, g2⟩ := applyOps_props ops _ q h1 hok
    refine ⟨j, h2, o2, fun m v hv => ?_⟩
    rcases g2 m v hv with hv | hv
    · rw [g1] at hv
      split at hv
      · rename_i e; cases hv; obtain ⟨rfl, rfl⟩ := e; exact .inr (by simp)
      · exact .inl hv
    · exact .inr (by simp [hv])

theorem mem_refOps {refs : References Nat} {prs : List (PropRef Nat)} {p : Nat} {n : Bytes} {v : Value Nat} :
    (p, n, v) ∈ refOps refs prs ↔ ∃ r, ⟨some p, n, r⟩ ∈ prs ∧ v = .reference (refs.at r) := by
  unfold refOps
  rw [List.mem_filterMap]
  constructor
  · rintro ⟨⟨o, n', r⟩, h, e⟩
    cases o with
    | none => cases e
    | some q => cases e; exact ⟨r, h, rfl⟩
  · rintro ⟨r, h, rfl⟩
    exact ⟨_, h, rfl⟩

theorem setRefs_length (refs : References Nat) : ∀ (prs : List (PropRef Nat)) (h : Heap Nat), (setRefs refs prs h).length = h.length
  | [], h => rfl
  | pr :: prs, h => by
    rw [setRefs, setRefs_length refs prs]
    unfold References.resolve
    split
    · rfl
    · split
      · rfl
      · rename_i hi
        exact set_length (by rw [hi]; rfl)

theorem rootFrom_list {j : JVal} {h : Heap Nat} {root : Root Nat} {l : List JVal} (hl : index j (str "instances") = some (.arr l))
    (hr : rootFrom O it j = .ok (some (h, root))) : ∃ ps s, listFrom O it l {} = .ok (ps, s) ∧
      h = applyOps s.heap (refOps s.refs s.propRefs) ∧ root = { instances := ps } := by
  unfold rootFrom at hr
  split at hr
  · split at hr
    · rw [hl] at hr
      simp only at hr
      obtain ⟨⟨ps, s⟩, h1, hr⟩ := Res.bind_eq_ok.1 hr
      cases hr
      exact ⟨ps, s, h1, setRefs_fold _ _ _, rfl⟩
    · cases hr
  · cases hr

/-- A root that is read has a list of instances. -/
theorem rootFrom_instances {j : JVal} {x : Heap Nat × Root Nat} (hr : rootFrom O it j = .ok (some x)) :
    ∃ l, index j (str "instances") = some (.arr l) := by
  unfold rootFrom at hr
  split at hr
  · split at hr
    · split at hr
      · rename_i l hl; exact ⟨l, hl⟩
      · cases hr
    · cases hr
  · cases hr

/-- Every instance that has been made. -/
structure Made (h : Heap Nat) (ps : List Nat) (p : Nat) (a : Inst Nat) : Prop where
  children : a.children = []
  properties : a.properties.Ok
  typed : ∀ n t v, a.properties.get? n = some (.optional t (some v)) → v.type = t
  refs : ∀ n q, a.properties.get? n = some (.reference (some q)) → (h.get? q).isSome
  unlisted : p ∉ ps → a = { className := [], reference := a.reference }

/-- The instances before and after references are resolved. -/
theorem final_made {l : List JVal} {ps : List Nat} {s : JState} (hs : listFrom O it l {} = .ok (ps, s)) {p : Nat} {a : Inst Nat}
    (ha : (applyOps s.heap (refOps s.refs s.propRefs)).get? p = some a) :
    Made (applyOps s.heap (refOps s.refs s.propRefs)) ps p a ∧
    ∃ b, s.heap.get? p = some b ∧ SameButProps b a := by
  have hl := listed l RInv.start hs
  have hi := hl.inv
  rw [List.append_nil] at hi
  have hsome : (s.heap.get? p).isSome := by rw [← applyOps_keys (refOps s.refs s.propRefs), ha]; rfl
  obtain ⟨b, hb⟩ := Option.isSome_iff_exists.1 hsome
  obtain ⟨a', g1, g2, g3⟩ := applyOps_get (refOps s.refs s.propRefs) s.heap p hb
  rw [ha] at g1; cases g1
  obtain ⟨a', x1, x2, x3⟩ := applyOps_props (refOps s.refs s.propRefs) s.heap p hb (hi.props p b hb)
  rw [ha] at x1; cases x1
  refine ⟨⟨g2.kids.trans (hi.children p b hb), x2, ?_, ?_, ?_⟩, b, hb, g2⟩
  · intro n t v hv
    rcases x3 n _ hv with hv | hv
    · exact hi.typed p b hb n t v hv
    · obtain ⟨r, -, e⟩ := mem_refOps.1 hv; cases e
  · intro n q hv
    rcases x3 n _ hv with hv | hv
    · exact absurd hv (hi.noRefs p b hb n _)
    · obtain ⟨r, -, e⟩ := mem_refOps.1 hv
      simp only [Value.reference.injEq] at e
      unfold References.at at e
      cases hg : s.refs.get? r with
      | none => rw [hg] at e; cases e
      | some o =>
        obtain ⟨-, q', c, rfl, hc, -⟩ := hi.named r o hg
        rw [hg] at e
        cases e
        rw [applyOps_keys, hc]
        rfl
  · intro hp
    have hbl := hi.blank p b hb hp
    have hno : ∀ m v, (p, m, v) ∉ refOps s.refs s.propRefs := by
      intro m v hv
      obtain ⟨r, hr, -⟩ := mem_refOps.1 hv
      obtain ⟨q, hq, e⟩ := hi.prs _ hr
      cases e
      exact hp hq
    have hprops : a.properties = [] := by
      cases hpr : a.properties with
      | nil => rfl
      | cons x m =>
        have := (g3 x.1).1 (hno x.1)
        rw [hbl, hpr] at this
        simp [Map.get?] at this
    obtain ⟨ac, ar, as, ap, ak⟩ := a
    have e1 := g2.cls; have e3 := g2.svc; have e4 := g2.kids
    rw [hbl] at e1 e3 e4
    simp only at e1 e3 e4 hprops
    subst e1 e3 e4 hprops
    rfl

/-- The instance with a reference. -/
theorem final_target {l : List JVal} {ps : List Nat} {s : JState} (hs : listFrom O it l {} = .ok (ps, s)) (r : Bytes) (p : Nat) :
    s.refs.at r = some p ↔ r ≠ [] ∧ ∃ a, (applyOps s.heap (refOps s.refs s.propRefs)).get? p = some a ∧ a.reference = r := by
  have hl := listed l RInv.start hs
  have hi := hl.inv
  constructor
  · intro h
    unfold References.at at h
    cases hg : s.refs.get? r with
    | none => rw [hg] at h; cases h
    | some o =>
      obtain ⟨h0, q, b, rfl, hb, hbr⟩ := hi.named r o hg
      rw [hg] at h
      cases h
      obtain ⟨a, g1, g2, -⟩ := applyOps_get (refOps s.refs s.propRefs) s.heap p hb
      exact ⟨by rintro rfl; exact absurd h0 (by decide), a, g1, g2.ref.trans hbr⟩
  · rintro ⟨hr, a, ha, rfl⟩
    obtain ⟨-, b, hb, hsame⟩ := final_made hs ha
    have := hi.known p b hb (by rw [← hsame.ref]; exact hr)
    rw [← hsame.ref] at this
    unfold References.at
    rw [this]
    rfl

theorem flat_forest {h : Heap Nat} : ∀ (ps : List Nat), (∀ p ∈ ps, ∃ a, h.get? p = some a ∧ a.children = []) →
    ∃ l, Forest h ps l ∧ l.map Prod.fst = ps
  | [], _ => ⟨[], .nil, rfl⟩
  | p :: ps, hp => by
    obtain ⟨a, ha, hc⟩ := hp p (by simp)
    obtain ⟨l, hl, e⟩ := flat_forest ps fun q hq => hp q (by simp [hq])
    exact ⟨(p, a) :: ([] ++ l), .cons ha (by rw [hc]; exact .nil) hl, by simp [e]⟩

/-- The instances at the top exist. -/
theorem final_listed {l : List JVal} {ps : List Nat} {s : JState} (hs : listFrom O it l {} = .ok (ps, s)) :
    List.Forall₂ (fun j p => ∃ a, (applyOps s.heap (refOps s.refs s.propRefs)).get? p = some a ∧ a.reference = referenceIn j)
      (l.filter describes) ps := by
  refine (listed l RInv.start hs).each.imp ?_
  rintro j p ⟨a, ha, hr⟩
  obtain ⟨a', g1, g2, -⟩ := applyOps_get (refOps s.refs s.propRefs) s.heap p ha
  exact ⟨a', g1, g2.ref.trans hr⟩

theorem OutsOf.names {p : Nat} {j : JVal} {os : List (Bytes × PropOut)} (h : OutsOf O it p j os) {ps : List (Bytes × JVal)}
    (hp : index j (str "properties") = some (.obj ps)) (hok : Map.Ok ps) :
    (os.map Prod.fst).Nodup ∧ (∀ n d, Map.get? ps n = some d → ∃ o, (n, o) ∈ os ∧ propFrom O it d = .ok o) ∧
    ∀ n o, (n, o) ∈ os → ∃ d, Map.get? ps n = some d ∧ propFrom O it d = .ok o := by
  have he := h.1 ps hp
  have hperm := it.perm [p] ps
  refine ⟨?_, ?_, ?_⟩
  · have := Each.fst_map (f := Prod.fst) (g := Prod.fst) (fun a b hab => hab.1) he
    rw [← this]
    exact (hperm.map Prod.fst).nodup_iff.2 hok
  · intro n d hd
    obtain ⟨⟨n', o⟩, ho, e1, e2⟩ := Each.mem_left he (n, d) (hperm.mem_iff.2 (Map.mem_of_get? hd))
    have e1 : n = n' := e1
    subst e1
    exact ⟨o, ho, e2⟩
  · intro n o ho
    obtain ⟨⟨n', d⟩, hd, e1, e2⟩ := Each.mem_right he (n, o) ho
    have e1 : n' = n := e1
    subst e1
    exact ⟨d, Map.get?_of_mem hok (hperm.mem_iff.1 hd), e2⟩

theorem out_unique {os : List (Bytes × PropOut)} (h : (os.map Prod.fst).Nodup) {n : Bytes} {o o' : PropOut} (h1 : (n, o) ∈ os)
    (h2 : (n, o') ∈ os) : o = o' := by
  have := Map.get?_of_mem (m := os) h h1
  rw [Map.get?_of_mem (m := os) h h2] at this
  cases this
  rfl

/-- What is read for one object. -/
theorem final_read {l : List JVal} {ps : List Nat} {s : JState} (hs : listFrom O it l {} = .ok (ps, s)) {j : JVal} {p : Nat}
    (hok : ∀ ps, index j (str "properties") = some (.obj ps) → Map.Ok ps) (h : ReadAs O it s j p) :
    ∃ a, (applyOps s.heap (refOps s.refs s.propRefs)).get? p = some a ∧
      ReadInstance O (fun r => s.refs.at r) j a := by
  have hto : ∀ t, JsonForm.typeOf t = typeNamed it t := fun t => by rw [typeNamed_eq]
  obtain ⟨cls, os, hc, ho, hb, hpr⟩ := h
  obtain ⟨a, g1, g2, g3⟩ := applyOps_get (refOps s.refs s.propRefs) s.heap p hb
  have hm : ∀ n v, (p, n, v) ∈ refOps s.refs s.propRefs ↔ ∃ r, (n, .ref r) ∈ os ∧ v = .reference (s.refs.at r) := by
    intro n v
    rw [mem_refOps]
    constructor
    · rintro ⟨r, h1, h2⟩
      obtain ⟨n', r', h3, e⟩ := mem_refOuts.1 ((hpr _ rfl).1 h1)
      cases e
      exact ⟨r, h3, h2⟩
    · rintro ⟨r, h1, h2⟩
      exact ⟨r, (hpr _ rfl).2 (mem_refOuts.2 ⟨n, r, h1, rfl⟩), h2⟩
  refine ⟨a, g1, ⟨by rw [g2.cls]; exact hc, g2.ref, ?_, g2.kids, ?_, ?_⟩⟩
  · rw [g2.svc]
    simp only [filled, serviceAfter, serviceIn]
    rcases index j (str "is_service") with _ | v
    · rfl
    · cases v <;> rfl
  · intro qs hq
    obtain ⟨hnd, x1, x2⟩ := ho.names hq (hok qs hq)
    refine ⟨fun n d hd => ?_, fun n hn => ?_⟩
    · obtain ⟨o, ho', hp⟩ := x1 n d hd
      cases o with
      | value v =>
        obtain ⟨t, w, ht, hw, hty, hv⟩ := propFrom_value hp
        have hn : a.properties.get? n = some v := by
          rw [(g3 n).1]
          · exact (applyOuts_get n os [] hnd).1 v ho'
          · intro u hu
            obtain ⟨r, hr, -⟩ := (hm n u).1 hu
            cases out_unique hnd ho' hr
        rw [hn]
        refine .inl ⟨t, w, ht, hw, .inr (.inr ⟨by rw [hto]; exact hty, fun x => ?_⟩)⟩
        rw [← valueFrom_reads O it, hto, hv]
        simp
      | ref r =>
        obtain ⟨t, ht, hw, hty⟩ := propFrom_ref hp
        have hn : a.properties.get? n = some (.reference (s.refs.at r)) := by
          refine (g3 n).2 _ ((hm n _).2 ⟨r, ho', rfl⟩) ?_
          intro u hu
          obtain ⟨r', hr, rfl⟩ := (hm n u).1 hu
          cases out_unique hnd ho' hr
          rfl
        rw [hn]
        exact .inl ⟨t, .str r, ht, hw, .inl ⟨by rw [hto]; exact hty, r, rfl, rfl⟩⟩
      | skip =>
        have hn : a.properties.get? n = none := by
          rw [(g3 n).1]
          · exact ((applyOuts_get n os [] hnd).2 fun v hv => by cases out_unique hnd ho' hv)
          · intro u hu
            obtain ⟨r, hr, -⟩ := (hm n u).1 hu
            cases out_unique hnd ho' hr
        rw [hn]
        rcases propFrom_skip hp with ⟨t, w, ht, hw, h | h⟩ | h
        · exact .inl ⟨t, w, ht, hw, .inr (.inl ⟨by rw [hto]; exact h.1, h.2, rfl⟩)⟩
        · refine .inl ⟨t, w, ht, hw, .inr (.inr ⟨by rw [hto]; exact h.1, fun x => ?_⟩)⟩
          rw [← valueFrom_reads O it, hto, h.2]
          simp
        · exact .inr ⟨h, rfl⟩
    · rw [(g3 n).1]
      · refine (applyOuts_get n os [] hnd).2 fun v hv => ?_
        obtain ⟨d, hd, -⟩ := x2 n _ hv
        rw [hn] at hd; cases hd
      · intro u hu
        obtain ⟨r, hr, -⟩ := (hm n u).1 hu
        obtain ⟨d, hd, -⟩ := x2 n _ hr
        rw [hn] at hd; cases hd
  · intro hno
    have he := ho.2 hno
    subst he
    cases hprs : a.properties with
    | nil => rfl
    | cons x m =>
      have := (g3 x.1).1 (fun v hv => by obtain ⟨r, hr, -⟩ := (hm _ v).1 hv; cases hr)
      rw [hprs] at this
      simp [Map.get?, filled, applyOuts] at this

end Json
