import Verif.Lemmas.Init
import Verif.Spec.Input

/-!
# The constructors give well formed records
-/

set_option linter.unusedSectionVars false

namespace KMC

/-! ### Type numbering -/

theorem Numbering.fst_inj {pt : List (String × Nat)} (h : Numbering pt) {a : String} {i j : Nat}
    (hi : (a, i) ∈ pt) (hj : (a, j) ∈ pt) : i = j := by
  have := List.inj_on_of_nodup_map h.names hi hj rfl
  simpa using this

theorem Numbering.snd_inj {pt : List (String × Nat)} (h : Numbering pt) {a b : String} {i : Nat}
    (hi : (a, i) ∈ pt) (hj : (b, i) ∈ pt) : a = b := by
  have hn : (pt.map Prod.snd).Nodup := h.numbers.nodup_iff.2 List.nodup_range
  have := List.inj_on_of_nodup_map hn hi hj rfl
  simpa using this

theorem Numbering.lt {pt : List (String × Nat)} (h : Numbering pt) {e : String × Nat} (he : e ∈ pt) :
    e.2 < pt.length := by
  have : e.2 ∈ List.range pt.length := h.numbers.mem_iff.1 (List.mem_map_of_mem he)
  exact List.mem_range.1 this

theorem wrLoop_ok {α : Type _} : ∀ (es : List (α × Nat)) (a : List α), (es.map Prod.snd).Nodup →
    (∀ e ∈ es, e.2 < a.length) →
    ∃ b, loopM (fun (names : List α) (e : α × Nat) => wr names e.2 e.1) es a = .ok b ∧ b.length = a.length ∧
      (∀ e ∈ es, b[e.2]? = some e.1) ∧ ∀ i, i ∉ es.map Prod.snd → b[i]? = a[i]?
  | [], a, _, _ => ⟨a, rfl, rfl, by simp, by simp⟩
  | e :: es, a, hn, hlt => by
    rw [List.map_cons, List.nodup_cons] at hn
    have he := hlt e (by simp)
    obtain ⟨b, h1, h2, h3, h4⟩ := wrLoop_ok es (a.set e.2 e.1) hn.2 (by
      intro f hf; rw [List.length_set]; exact hlt f (by simp [hf]))
    refine ⟨b, by rw [loopM_cons, wr_of_lt he, ok_bind, h1], by simpa using h2, ?_, ?_⟩
    · intro f hf
      rcases List.mem_cons.1 hf with rfl | hf
      · rw [h4 _ hn.1, List.getElem?_set]
        simp [he]
      · exact h3 f hf
    · intro i hi
      simp only [List.map_cons, List.mem_cons, not_or] at hi
      rw [h4 i hi.2, List.getElem?_set, if_neg (Ne.symm hi.1)]

theorem Config.typeNamesOf_ok {pt : List (String × Nat)} (h : Numbering pt) :
    ∃ names, Config.typeNamesOf pt = .ok names ∧ names.length = pt.length ∧ names.Nodup ∧
      ∀ (k : Nat) (name : String), names[k]? = some name ↔ (name, k) ∈ pt := by
  have hmax : pt.foldl (fun m e => if e.2 > m then e.2 else m) 0 + 1 = pt.length := by
    obtain ⟨-, h2⟩ := Config.foldl_max_ge (fun e : String × Nat => e.2) pt 0
    have hup : ∀ (l : List (String × Nat)) (m b : Nat), m ≤ b → (∀ e ∈ l, e.2 ≤ b) →
        l.foldl (fun m e => if e.2 > m then e.2 else m) m ≤ b := by
      intro l
      induction l with
      | nil => intro m b hm _; exact hm
      | cons e l ih =>
        intro m b hm hl
        rw [List.foldl_cons]
        apply ih
        · have := hl e (by simp)
          split <;> omega
        · exact fun f hf => hl f (by simp [hf])
    have hlen : 0 < pt.length := List.length_pos_iff.2 h.some
    have h3 := hup pt 0 (pt.length - 1) (by omega) (fun e he => by have := h.lt he; omega)
    have h4 : pt.length - 1 ∈ pt.map Prod.snd := h.numbers.mem_iff.2 (List.mem_range.2 (by omega))
    obtain ⟨e, he, he2⟩ := List.mem_map.1 h4
    have := h2 e he
    omega
  unfold Config.typeNamesOf
  dsimp only
  rw [hmax]
  obtain ⟨b, h1, h2, h3, h4⟩ := wrLoop_ok pt (List.replicate pt.length "")
    (h.numbers.nodup_iff.2 List.nodup_range) (by
      intro e he; rw [List.length_replicate]; exact h.lt he)
  rw [List.length_replicate] at h2
  have hiff : ∀ (k : Nat) (name : String), b[k]? = some name ↔ (name, k) ∈ pt := by
    intro k name
    constructor
    · intro hk
      have hkl : k < pt.length := by rw [← h2]; exact (List.getElem?_eq_some_iff.1 hk).1
      have : k ∈ pt.map Prod.snd := h.numbers.mem_iff.2 (List.mem_range.2 hkl)
      obtain ⟨e, he, rfl⟩ := List.mem_map.1 this
      rw [h3 e he, Option.some.injEq] at hk
      rw [← hk]
      exact he
    · intro hm
      exact h3 _ hm
  refine ⟨b, h1, h2, ?_, hiff⟩
  rw [List.nodup_iff_injective_getElem]
  rintro ⟨i, hi⟩ ⟨j, hj⟩ hij
  simp only at hij
  have a1 := (hiff i _).1 (List.getElem?_eq_getElem hi)
  have a2 := (hiff j _).1 (List.getElem?_eq_getElem hj)
  rw [hij] at a1
  simpa using h.fst_inj a1 a2

theorem Config.typeNumber_ok {pt : List (String × Nat)} {e : String} (he : e ∈ pt.map Prod.fst) :
    ∃ t, Config.typeNumber pt e = .ok t ∧ (e, t) ∈ pt := by
  unfold Config.typeNumber
  cases hl : pt.lookup e with
  | none =>
    exfalso
    rw [List.lookup_eq_none_iff] at hl
    obtain ⟨p, hp, rfl⟩ := List.mem_map.1 he
    have := hl p hp
    simp at this
  | some t =>
    obtain ⟨l1, l2, h1, -⟩ := List.lookup_eq_some_iff.1 hl
    exact ⟨t, rfl, by rw [h1]; simp⟩

theorem Config.bucketOf_loop {pt : List (String × Nat)} (h : Numbering pt) : ∀ (els : List String) (tb : Bucket),
    tb.length = pt.length → (∀ e ∈ els, e ∈ pt.map Prod.fst) →
    ∃ b, loopM (fun (tb : Bucket) e => do
        let t ← Config.typeNumber pt e
        let v ← rd tb t
        wr tb t (v + 1)) els tb = .ok b ∧ b.length = pt.length ∧
      ∀ (k : Nat) (name : String), (name, k) ∈ pt → b[k]? = tb[k]?.map (fun v => v + (els.count name : Int))
  | [], tb, hl, _ => ⟨tb, rfl, hl, by intro k name _; simp⟩
  | e :: els, tb, hl, hk => by
    obtain ⟨t, h1, h2⟩ := Config.typeNumber_ok (hk e (by simp))
    have htl : t < tb.length := by rw [hl]; exact h.lt h2
    obtain ⟨b, h3, h4, h5⟩ := Config.bucketOf_loop h els (tb.set t (tb[t] + 1)) (by simpa using hl)
      (fun f hf => hk f (by simp [hf]))
    refine ⟨b, ?_, h4, ?_⟩
    · rw [loopM_cons, h1, ok_bind, rd_of_lt htl, ok_bind, wr_of_lt htl, ok_bind]
      exact h3
    · intro k name hkn
      rw [h5 k name hkn, List.getElem?_set]
      by_cases hkt : t = k
      · subst hkt
        have := h.snd_inj hkn h2
        subst this
        rw [if_pos rfl, if_pos htl, List.getElem?_eq_getElem htl, List.count_cons_self]
        simp only [Option.map_some, Option.some.injEq]
        push_cast
        ring
      · rw [if_neg hkt, List.count_cons_of_ne]
        intro hne
        apply hkt
        subst hne
        exact h.fst_inj h2 hkn

theorem Config.bucketOf_ok {pt : List (String × Nat)} (h : Numbering pt) {els : List String}
    (hk : ∀ e ∈ els, e ∈ pt.map Prod.fst) :
    ∃ b, Config.bucketOf pt pt.length els = .ok b ∧ b.length = pt.length ∧
      ∀ (k : Nat) (name : String), (name, k) ∈ pt → b[k]? = some (els.count name : Int) := by
  obtain ⟨b, h1, h2, h3⟩ := Config.bucketOf_loop h els (Bucket.zeros pt.length) (by simp [Bucket.zeros]) hk
  refine ⟨b, h1, h2, ?_⟩
  intro k name hkn
  have := h.lt hkn
  simp only at this
  rw [h3 k name hkn]
  simp [Bucket.zeros, this]

/-! ### Configurations -/

section
variable {K : Type _} [Field K] [LinearOrder K]

/-- The constructor of configurations goes through and gives a good configuration. -/
theorem Config.mk'_ok {pt : List (String × Nat)} (h : Numbering pt) {n : Nat} {coords : List (Coord K)}
    {elements : List (List String)} (hn : coords.length = n) (ho : Occupation pt n elements) :
    ∃ cfg, Config.mk' coords elements pt = .ok cfg ∧ cfg.Good n pt.length ∧ cfg.coords = coords ∧
      cfg.elements = elements ∧ cfg.possibleTypes = pt ∧ cfg.atomId = List.range n ∧
      cfg.atomIdCoords = coords ∧
      (∀ (k : Nat) (name : String), cfg.typeNames[k]? = some name ↔ (name, k) ∈ pt) ∧
      (∀ (i : Nat) (els : List String), elements[i]? = some els → cfg.atomIdElements[i]? = els[0]?) := by
  obtain ⟨names, n1, n2, n3, n4⟩ := Config.typeNamesOf_ok h
  obtain ⟨first, f1⟩ := mapMM_isOk (f := fun i => do let e ← rd elements i; rd e 0) (xs := List.range coords.length) (by
    intro i hi
    have hil : i < elements.length := by rw [ho.len, ← hn]; exact List.mem_range.1 hi
    have h0 := List.length_pos_iff.2 (ho.some _ (List.getElem_mem hil))
    exact ⟨elements[i][0], by rw [rd_of_lt hil, ok_bind, rd_of_lt h0]⟩)
  have hfl := mapMM_length f1
  rw [List.length_range] at hfl
  obtain ⟨aie, a1, a2, a3⟩ := Config.loopM_wr_zip first 0 (List.replicate elements.length "") (by
    simp [hfl, ho.len, hn])
  rw [← List.range_eq_range', hfl] at a1
  obtain ⟨types, t1⟩ := mapMM_isOk (f := Config.bucketOf pt names.length) (xs := elements) (by
    intro els hels
    rw [n2]
    obtain ⟨b, hb, -⟩ := Config.bucketOf_ok h (ho.known els hels)
    exact ⟨b, hb⟩)
  have htl := mapMM_length t1
  have htypes : ∀ (i : Nat) (t : Bucket), types[i]? = some t → ∃ els, elements[i]? = some els ∧ els ∈ elements ∧
      Config.bucketOf pt pt.length els = .ok t := by
    intro i t hi
    obtain ⟨els, e1, e2⟩ := mapMM_getElem?' t1 hi
    rw [n2] at e2
    exact ⟨els, e1, List.mem_of_getElem? e1, e2⟩
  have hrun : Config.mk' coords elements pt = .ok { coords := coords, elements := elements, types := types, typeNames := names, possibleTypes := pt, atomId := List.range coords.length, atomIdElements := aie, atomIdCoords := coords, matchLists := List.replicate elements.length [], movedIds := [], moveVectors := [], nMoved := 0, latestProcess := 0, latestSite := 0 } := by
    unfold Config.mk'
    rw [f1, ok_bind, a1, ok_bind, n1, ok_bind, t1, ok_bind]
    rfl
  refine ⟨_, hrun, ⟨⟨hn, ho.len, ?_, ?_, ?_, hn, ?_⟩, n2, rfl, ?_, ?_, ho.some, n3, ?_⟩, rfl, rfl, rfl, ?_, rfl, n4, ?_⟩
  · exact htl.trans ho.len
  · simpa using hn
  · simpa [ho.len] using a2
  · simpa using ho.len
  · intro t ht
    obtain ⟨i, hi⟩ := List.mem_iff_getElem?.1 ht
    obtain ⟨els, -, e2, e3⟩ := htypes i t hi
    obtain ⟨b, b1, b2, -⟩ := Config.bucketOf_ok h (ho.known els e2)
    rw [e3] at b1
    cases b1
    exact b2
  · intro i hi
    rw [← hn]
    exact List.mem_range.1 hi
  · intro i els t hi ht
    obtain ⟨els', e1, e2, e3⟩ := htypes i t ht
    have hi : elements[i]? = some els := hi
    rw [hi, Option.some.injEq] at e1
    subst e1
    obtain ⟨b, b1, b2, b3⟩ := Config.bucketOf_ok h (ho.known els e2)
    rw [e3] at b1
    cases b1
    refine ⟨?_, ?_⟩
    · intro e he
      obtain ⟨p, hp, rfl⟩ := List.mem_map.1 (ho.known els e2 e he)
      exact List.mem_of_getElem? ((n4 p.2 p.1).2 hp)
    · intro k name hk
      exact b3 k name ((n4 k name).1 hk)
  · rw [← hn]
  · intro i els hi
    have hil : i < coords.length := by
      rw [hn, ← ho.len]; exact (List.getElem?_eq_some_iff.1 hi).1
    show aie[i]? = els[0]?
    rw [a3, if_pos (by omega), Nat.sub_zero]
    obtain ⟨y, y1, y2⟩ := mapMM_getElem? f1 (i := i) (x := i) (by rw [List.getElem?_range hil])
    rw [y1]
    rw [rd_of_getElem? hi, ok_bind] at y2
    exact (rd_ok.1 y2).symm

/-! ### Processes -/

theorem setMove_loop (ms : List (Nat × Coord K)) : ∀ (l l' : List (PEntry K)), loopM setMove ms l = .ok l' →
    l'.length = l.length ∧ l'.map (·.updateTypes) = l.map (·.updateTypes) ∧
    ∀ (i : Nat) (e' : PEntry K), l'[i]? = some e' → ∃ e, l[i]? = some e ∧
      e' = { e with hasMove := e'.hasMove, moveCoord := e'.moveCoord } ∧
      (e'.hasMove = true → e.hasMove = true ∨ i ∈ ms.map Prod.fst) := by
  induction ms with
  | nil =>
    intro l l' h
    cases h
    exact ⟨rfl, rfl, fun i e' h => ⟨e', h, rfl, .inl⟩⟩
  | cons m ms ih =>
    intro l l' h
    rw [loopM_cons] at h
    obtain ⟨l1, h1, h2⟩ := bind_ok.1 h
    unfold setMove at h1
    obtain ⟨e0, h3, h4⟩ := bind_ok.1 h1
    rw [rd_ok] at h3
    have hm : m.1 < l.length := (List.getElem?_eq_some_iff.1 h3).1
    rw [wr_of_lt hm] at h4
    cases h4
    obtain ⟨a, b, c⟩ := ih _ _ h2
    refine ⟨by simpa using a, ?_, ?_⟩
    · rw [b, List.map_set]
      apply List.ext_getElem? 
      intro i
      rw [List.getElem?_set]
      split
      · next hi =>
        subst hi
        rw [if_pos (by simpa using hm), List.getElem?_map, h3]
        rfl
      · rfl
    · intro i e' he'
      obtain ⟨e, q1, q2, q3⟩ := c i e' he'
      rw [List.getElem?_set] at q1
      split at q1
      · next hi =>
        subst hi
        rw [Option.some.injEq] at q1
        subst q1
        exact ⟨e0, h3, q2, fun _ => .inr (by simp)⟩
      · refine ⟨e, q1, q2, fun hh => ?_⟩
        rcases q3 hh with h | h
        · exact .inl h
        · exact .inr (by simp only [List.map_cons, List.mem_cons]; exact .inr h)

theorem bucketDiff_ok : ∀ (b a : Bucket), b.length = a.length →
    ∃ d, bucketDiff b a = .ok d ∧ d.length = a.length ∧
      ∀ (k : Nat) (x y : Int), a[k]? = some x → b[k]? = some y → d[k]? = some (y - x)
  | [], [], _ => ⟨[], rfl, rfl, by simp⟩
  | [], _ :: _, h => by simp at h
  | _ :: _, [], h => by simp at h
  | y :: b, x :: a, h => by
    obtain ⟨d, h1, h2, h3⟩ := bucketDiff_ok b a (by simpa using h)
    refine ⟨(y - x) :: d, ?_, by simpa using h2, ?_⟩
    · unfold bucketDiff
      rw [h1]
      rfl
    · intro k x' y' hx hy
      cases k with
      | zero => simp at hx hy; subst hx hy; simp
      | succ k => simp at hx hy ⊢; exact h3 k x' y' hx hy

/-- What the front end has to give for one process: the required counts `ts`, the changes `us`, the
positions and the entries that have a move vector. -/
structure Pattern (nT : Nat) (coords : List (Coord K)) (ts us : List Bucket) (froms : List Nat) : Prop where
  sized : ∀ t ∈ ts, t.length = nT
  updates : ∀ u ∈ us, u.length = nT
  slot : ∀ u ∈ us, u[0]? = some 0
  enough : ∀ (i : Nat) (t u : Bucket), ts[i]? = some t → us[i]? = some u → (∃ v ∈ u, v ≠ 0) →
    ∀ (k : Nat) (x v : Int), t[k]? = some x → u[k]? = some v → 0 ≤ x + v
  leaves : ∀ (i : Nat) (t u : Bucket), ts[i]? = some t → us[i]? = some u → (∃ v ∈ u, v ≠ 0) →
    ∃ (k : Nat) (x v : Int), t[k]? = some x ∧ u[k]? = some v ∧ 0 < x + v
  apart : ∀ (i j : Nat) (c d : Coord K) (u v : Bucket), i < j → coords[i]? = some c → coords[j]? = some d →
    us[i]? = some u → us[j]? = some v → ((∃ x ∈ u, x ≠ 0) ∨ i ∈ froms) → ((∃ x ∈ v, x ≠ 0) ∨ j ∈ froms) → Apart c d
  notWild : ∀ (i : Nat) (t u : Bucket), ts[i]? = some t → us[i]? = some u → ((∃ x ∈ u, x ≠ 0) ∨ i ∈ froms) →
    t[0]? ≠ some 1

theorem Apart.symm {c d : Coord K} (h : Apart c d) : Apart d c := by
  unfold Apart at *
  rw [abs_sub_comm d.x, abs_sub_comm d.y, abs_sub_comm d.z]
  exact h

end

section
variable {K : Type _} [Field K] [LinearOrder K] [FloorRing K]

/-- The constructor of processes gives well formed processes. -/
theorem mkProcess_wellFormed' {dist : Coord K → K} {first second : Config K} {info : List (List (String × Int))}
    {rate : K} {basis : List Nat} {moves : List (Nat × Coord K)} {number nT : Nat} {p : Proc K} {us : List Bucket}
    (hp : mkProcess dist first second info rate basis moves number = .ok p)
    (hu : updateTypesOf first second info = .ok us)
    (h : Pattern nT first.coords first.types us (moves.map Prod.fst)) : p.WellFormed nT := by
  unfold mkProcess at hp
  rw [hu, ok_bind] at hp
  obtain ⟨origin, -, hp⟩ := bind_ok.1 hp
  obtain ⟨entries, he, hp⟩ := bind_ok.1 hp
  obtain ⟨wm, hm, hp⟩ := bind_ok.1 hp
  have hp : p = _ := (Except.ok.inj hp).symm
  obtain ⟨m1, m2, m3⟩ := setMove_loop _ _ _ hm
  have hperm : p.matchList.Perm wm := by rw [hp]; exact (perm_sortP wm)
  have hfrom : ∀ (i : Nat) (e : PEntry K), wm[i]? = some e → ∃ (c : Coord K) (t u : Bucket), first.coords[i]? = some c ∧
      first.types[i]? = some t ∧ us[i]? = some u ∧ e.coord = c ∧ e.matchTypes = t ∧ e.updateTypes = u ∧
      (e.hasMove = true → i ∈ moves.map Prod.fst) := by
    intro i e' h1
    obtain ⟨e, h2, h3, h4⟩ := m3 i e' h1
    obtain ⟨i', h5, h6⟩ := mapMM_getElem?' he h2
    have hi' : i' = i := by
      have := (List.getElem?_eq_some_iff.1 h5)
      obtain ⟨_, h⟩ := this
      rw [List.getElem_range] at h
      exact h.symm
    subst hi'
    unfold entryOf at h6
    obtain ⟨c, q1, h6⟩ := bind_ok.1 h6
    obtain ⟨t, q2, h6⟩ := bind_ok.1 h6
    obtain ⟨u, q3, h6⟩ := bind_ok.1 h6
    have h6 : e = _ := (Except.ok.inj h6).symm
    rw [rd_ok] at q1 q2 q3
    subst h6
    refine ⟨c, t, u, q1, q2, q3, by rw [h3], by rw [h3], by rw [h3], ?_⟩
    intro hh
    rcases h4 hh with h | h
    · cases h
    · exact h
  have hmem : ∀ e ∈ p.matchList, ∃ i, wm[i]? = some e := fun e he => List.mem_iff_getElem?.1 (hperm.mem_iff.1 he)
  refine ⟨?_, ?_, ?_, ?_, ?_, ?_, ?_, ?_, ?_, ?_⟩
  · intro e he
    obtain ⟨i, hi⟩ := hmem e he
    obtain ⟨c, t, u, q1, q2, q3, q4, q5, q6, q7⟩ := hfrom i e hi
    rw [q5]; exact h.sized _ (List.mem_of_getElem? q2)
  · intro e he
    obtain ⟨i, hi⟩ := hmem e he
    obtain ⟨c, t, u, q1, q2, q3, q4, q5, q6, q7⟩ := hfrom i e hi
    rw [q6]; exact h.updates _ (List.mem_of_getElem? q3)
  · intro e he
    obtain ⟨i, hi⟩ := hmem e he
    obtain ⟨c, t, u, q1, q2, q3, q4, q5, q6, q7⟩ := hfrom i e hi
    rw [q6]; exact h.slot _ (List.mem_of_getElem? q3)
  · intro e he hc
    obtain ⟨i, hi⟩ := hmem e he
    obtain ⟨c, t, u, q1, q2, q3, q4, q5, q6, q7⟩ := hfrom i e hi
    unfold PEntry.Changes at hc
    rw [q6] at hc
    rw [q5, q6]
    exact h.enough i t u q2 q3 hc
  · intro e he hc
    obtain ⟨i, hi⟩ := hmem e he
    obtain ⟨c, t, u, q1, q2, q3, q4, q5, q6, q7⟩ := hfrom i e hi
    unfold PEntry.Changes at hc
    rw [q6] at hc
    rw [q5, q6]
    exact h.leaves i t u q2 q3 hc
  · rw [hperm.pairwise_iff (by
      intro a b hab hb ha
      exact (hab ha hb).symm)]
    rw [List.pairwise_iff_getElem]
    intro i j hi hj hij a b
    obtain ⟨c, t, u, q1, q2, q3, q4, q5, q6, q7⟩ := hfrom i _ (List.getElem?_eq_getElem hi)
    obtain ⟨c', t', u', r1, r2, r3, r4, r5, r6, r7⟩ := hfrom j _ (List.getElem?_eq_getElem hj)
    unfold PEntry.Changes at a b
    rw [q6] at a
    rw [r6] at b
    rw [q4, r4]
    exact h.apart i j c c' u u' hij q1 r1 q3 r3 (a.imp id q7) (b.imp id r7)
  · intro e he hc
    obtain ⟨i, hi⟩ := hmem e he
    obtain ⟨c, t, u, q1, q2, q3, q4, q5, q6, q7⟩ := hfrom i e hi
    unfold PEntry.Changes at hc
    rw [q6] at hc
    rw [q5]
    exact h.notWild i t u q2 q3 (hc.imp id q7)
  · rw [(hperm.filter _).length_eq]
    have ha : p.affected.length = (entries.filter isAffecting).length := by rw [hp]; simp
    rw [ha]
    have e1 : ∀ l : List (PEntry K), (l.filter (fun e => decide e.Changes)).length =
        ((l.map (·.updateTypes)).filter (fun u => decide (∃ v ∈ u, v ≠ 0))).length := by
      intro l
      rw [List.filter_map, List.length_map]
      rfl
    have e2 : ∀ l : List (PEntry K), (l.filter isAffecting).length =
        ((l.map (·.updateTypes)).filter (fun u => decide (∃ v ∈ u, v ≠ 0))).length := by
      intro l
      rw [List.filter_map, List.length_map]
      congr 2
      funext e
      unfold isAffecting
      rw [Bool.eq_iff_iff]
      simp
    rw [e1, e2, m2]
  · rw [hp]
    intro a ha
    simp at ha
    exact ha.2
  · intro mv hmv
    rw [hp] at hmv ⊢
    simp only at hmv ⊢
    unfold idMovesOf at hmv
    rw [List.mem_filterMap] at hmv
    obtain ⟨i, -, hi⟩ := hmv
    split at hi
    · next e hei =>
      split at hi
      · next hme =>
        rw [Option.map_eq_some_iff] at hi
        obtain ⟨j, hj, rfl⟩ := hi
        unfold moveTarget at hj
        have := List.find?_some hj
        split at this
        · next f hf =>
          simp only [Bool.and_eq_true] at this
          exact ⟨e, f, hei, hf, hme, this.1.1⟩
        · cases this
      · cases hi
    · cases hi

/-- Something happens at place `i` of a process given by the configurations before and after. -/
def Happens (first second : Config K) (moves : List (Nat × Coord K)) (i : Nat) : Prop :=
  first.types[i]? ≠ second.types[i]? ∨ i ∈ moves.map Prod.fst

/-- The constructor gives a well formed process for configurations before and after on the same
places, with wildcards at the same places, nothing happening at wildcards, and the places where
something happens distinct. -/
theorem mkProcess_wellFormed {dist : Coord K → K} {first second : Config K}
    {rate : K} {basis : List Nat} {moves : List (Nat × Coord K)} {number n nT : Nat} {p : Proc K}
    (hp : mkProcess dist first second [] rate basis moves number = .ok p)
    (h1 : first.Good n nT) (h2 : second.Good n nT) (hT : 0 < nT)
    (hwild : ∀ (i : Nat) (t t' : Bucket), first.types[i]? = some t → second.types[i]? = some t' → t[0]? = t'[0]?)
    (hnot : ∀ (i : Nat) (t : Bucket), Happens first second moves i → first.types[i]? = some t → t[0]? ≠ some 1)
    (hapart : ∀ (i j : Nat) (c d : Coord K), i < j → first.coords[i]? = some c → first.coords[j]? = some d →
      Happens first second moves i → Happens first second moves j → Apart c d) :
    p.WellFormed nT := by
  have hus : ∃ us, updateTypesOf first second [] = .ok us := by
    unfold updateTypesOf
    rw [if_neg (by simp)]
    apply mapMM_isOk
    intro i hi
    have hi : i < n := by rw [← h1.shape.elements]; exact List.mem_range.1 hi
    have a1 : i < first.types.length := by rw [h1.shape.types]; exact hi
    have a2 : i < second.types.length := by rw [h2.shape.types]; exact hi
    obtain ⟨d, hd, -⟩ := bucketDiff_ok second.types[i] first.types[i] (by
      rw [h1.bucket _ (List.getElem_mem a1), h2.bucket _ (List.getElem_mem a2)])
    exact ⟨d, by rw [rd_of_lt a1, ok_bind, rd_of_lt a2, ok_bind, hd]⟩
  obtain ⟨us, hus⟩ := hus
  have hu : ∀ (i : Nat) (u : Bucket), us[i]? = some u → ∃ t t', first.types[i]? = some t ∧ second.types[i]? = some t' ∧
      t.length = nT ∧ t'.length = nT ∧ u.length = nT ∧
      ∀ (k : Nat) (x y : Int), t[k]? = some x → t'[k]? = some y → u[k]? = some (y - x) := by
    intro i u hi
    unfold updateTypesOf at hus
    rw [if_neg (by simp)] at hus
    obtain ⟨i', q1, q2⟩ := mapMM_getElem?' hus hi
    have hi' : i' = i := by
      obtain ⟨_, h⟩ := (List.getElem?_eq_some_iff.1 q1)
      rw [List.getElem_range] at h
      exact h.symm
    subst hi'
    obtain ⟨t, q3, q2⟩ := bind_ok.1 q2
    obtain ⟨t', q4, q2⟩ := bind_ok.1 q2
    rw [rd_ok] at q3 q4
    have b1 := h1.bucket t (List.mem_of_getElem? q3)
    have b2 := h2.bucket t' (List.mem_of_getElem? q4)
    obtain ⟨d, hd, hl, hd'⟩ := bucketDiff_ok t' t (by rw [b1, b2])
    rw [hd] at q2
    cases q2
    exact ⟨t, t', q3, q4, b1, b2, hl.trans b1, hd'⟩
  have hhap : ∀ (i : Nat) (u : Bucket), us[i]? = some u → (∃ v ∈ u, v ≠ 0) → first.types[i]? ≠ second.types[i]? := by
    intro i u hi ⟨v, hv, hv0⟩ heq
    obtain ⟨t, t', q1, q2, q3, q4, q5, q6⟩ := hu i u hi
    rw [q1, q2, Option.some.injEq] at heq
    subst heq
    obtain ⟨k, hk⟩ := List.mem_iff_getElem?.1 hv
    have hkl : k < t.length := by rw [q3, ← q5]; exact (List.getElem?_eq_some_iff.1 hk).1
    have := q6 k _ _ (List.getElem?_eq_getElem hkl) (List.getElem?_eq_getElem hkl)
    rw [sub_self, hk, Option.some.injEq] at this
    exact hv0 this
  have hcoord : ∀ (k : Nat) (t t' u : Bucket) (x v : Int), t.length = nT → t'.length = nT →
      (∀ (k : Nat) (x y : Int), t[k]? = some x → t'[k]? = some y → u[k]? = some (y - x)) →
      t[k]? = some x → u[k]? = some v → t'[k]? = some (x + v) := by
    intro k t t' u x v l1 l2 hh hx hv
    have hk : k < t'.length := by rw [l2, ← l1]; exact (List.getElem?_eq_some_iff.1 hx).1
    have := hh k x _ hx (List.getElem?_eq_getElem hk)
    rw [hv, Option.some.injEq] at this
    rw [List.getElem?_eq_getElem hk, this]
    congr 1
    omega
  refine mkProcess_wellFormed' hp hus ⟨h1.bucket, ?_, ?_, ?_, ?_, ?_, ?_⟩
  · intro u hm
    obtain ⟨i, hi⟩ := List.mem_iff_getElem?.1 hm
    obtain ⟨t, t', q1, q2, q3, q4, q5, q6⟩ := hu i u hi
    exact q5
  · intro u hm
    obtain ⟨i, hi⟩ := List.mem_iff_getElem?.1 hm
    obtain ⟨t, t', q1, q2, q3, q4, q5, q6⟩ := hu i u hi
    have hw := hwild i t t' q1 q2
    have h0 : 0 < t.length := by omega
    rw [List.getElem?_eq_getElem h0] at hw
    rw [q6 0 _ _ (List.getElem?_eq_getElem h0) hw.symm, sub_self]
  · intro i t u ht hi hc k x v hx hv
    obtain ⟨t0, t', q1, q2, q3, q4, q5, q6⟩ := hu i u hi
    rw [ht, Option.some.injEq] at q1
    subst q1
    have hy := hcoord k t t' u x v q3 q4 q6 hx hv
    have hel : i < second.elements.length := by
      rw [h2.shape.elements, ← h2.shape.types]; exact (List.getElem?_eq_some_iff.1 q2).1
    obtain ⟨-, hcount⟩ := h2.tallied i _ t' (List.getElem?_eq_getElem hel) q2
    have hkn : k < second.typeNames.length := by
      rw [h2.names, ← q4]; exact (List.getElem?_eq_some_iff.1 hy).1
    have := hcount k _ (List.getElem?_eq_getElem hkn)
    rw [hy, Option.some.injEq] at this
    rw [this]
    exact Int.natCast_nonneg _
  · intro i t u ht hi hc
    obtain ⟨t0, t', q1, q2, q3, q4, q5, q6⟩ := hu i u hi
    rw [ht, Option.some.injEq] at q1
    subst q1
    have hel : i < second.elements.length := by
      rw [h2.shape.elements, ← h2.shape.types]; exact (List.getElem?_eq_some_iff.1 q2).1
    obtain ⟨hk, hcount⟩ := h2.tallied i _ t' (List.getElem?_eq_getElem hel) q2
    have hne := h2.elements _ (List.getElem_mem hel)
    obtain ⟨e, he⟩ := List.exists_mem_of_ne_nil _ hne
    obtain ⟨k, hkn⟩ := List.mem_iff_getElem?.1 (hk e he)
    have hy := hcount k e hkn
    have hkt : k < t.length := by rw [q3, ← q4]; exact (List.getElem?_eq_some_iff.1 hy).1
    refine ⟨k, t[k], _, List.getElem?_eq_getElem hkt, q6 k _ _ (List.getElem?_eq_getElem hkt) hy, ?_⟩
    have : 0 < List.count e second.elements[i] := List.count_pos_iff.2 he
    omega
  · intro i j c d u v hij hc hd hu1 hv1 a b
    exact hapart i j c d hij hc hd (a.imp (hhap i u hu1) id) (b.imp (hhap j v hv1) id)
  · intro i t u ht hi hc
    exact hnot i t (hc.imp (hhap i u hi) id) ht

/-- The same for processes with custom rates. -/
theorem mkCustomProcess_core {dist : Coord K → K} {first second : Config K} {info : List (List (String × Int))}
    {rate cutoff : K} {basis : List Nat} {moves : List (Nat × Coord K)} {number nT : Nat} {cache : Bool} {p : Proc K}
    (hp : mkCustomProcess dist first second info rate basis cutoff moves number cache = .ok p)
    (h : ∀ q, mkProcess dist first second info rate basis moves number = .ok q → q.WellFormed nT) :
    p.WellFormed nT := by
  unfold mkCustomProcess at hp
  obtain ⟨q, hq, hp⟩ := bind_ok.1 hp
  have hp : p = _ := (Except.ok.inj hp).symm
  subst hp
  obtain ⟨a1, a2, a3, a4, a5, a6, a7, a8, a9, a10⟩ := h q hq
  exact ⟨a1, a2, a3, a4, a5, a6, a7, a8, a9, a10⟩

/-! ### One particle per site -/

theorem bucketDiff_sum : ∀ (b a d : Bucket), b.length = a.length → bucketDiff b a = .ok d → d.sum = b.sum - a.sum
  | [], [], d, _, h => by cases h; rfl
  | [], _ :: _, _, h, _ => by simp at h
  | _ :: _, [], _, h, _ => by simp at h
  | y :: b, x :: a, d, h, hd => by
    unfold bucketDiff at hd
    obtain ⟨r, hr, hd⟩ := bind_ok.1 hd
    cases hd
    rw [List.sum_cons, List.sum_cons, List.sum_cons, bucketDiff_sum b a r (by simpa using h) hr]
    omega

theorem sum_counts {α : Type _} [DecidableEq α] (names : List α) (hn : names.Nodup) (els : List α) (h : ∀ e ∈ els, e ∈ names) :
    (names.map (fun k => (els.count k : Int))).sum = els.length := by
  induction els with
  | nil => simp
  | cons e els ih =>
    have h1 : ∀ names : List α, (names.map (fun k => ((e :: els).count k : Int))).sum =
        (names.map (fun k => (els.count k : Int))).sum + names.count e := by
      intro names
      induction names with
      | nil => simp
      | cons a names ihn =>
        rw [List.map_cons, List.sum_cons, ihn, List.map_cons, List.sum_cons, List.count_cons, List.count_cons]
        by_cases hae : e = a
        · subst hae; simp; omega
        · have : a ≠ e := fun h => hae h.symm
          simp [hae, this]; omega
    rw [h1, ih (fun x hx => h x (by simp [hx])), List.count_eq_one_of_mem hn (h e (by simp))]
    simp

omit [FloorRing K] in
/-- The counts of a site add up to the number of its elements. -/
theorem Config.Good.sum {n nT : Nat} {c : Config K} (h : c.Good n nT) {i : Nat} {els : List String} {t : Bucket}
    (he : c.elements[i]? = some els) (ht : c.types[i]? = some t) : t.sum = els.length := by
  obtain ⟨h1, h2⟩ := h.tallied i els t he ht
  have hl : t.length = c.typeNames.length := by rw [h.names]; exact h.bucket t (List.mem_of_getElem? ht)
  have : t = c.typeNames.map (fun k => (els.count k : Int)) := by
    apply List.ext_getElem?
    intro k
    rw [List.getElem?_map]
    cases hk : c.typeNames[k]? with
    | none =>
      rw [Option.map_none, List.getElem?_eq_none_iff]
      rw [List.getElem?_eq_none_iff] at hk
      omega
    | some name => exact h2 k name hk
  rw [this]
  exact sum_counts _ h.distinct els h1

/-- An ordinary process between configurations with one element per site keeps the number of particles
of every site. -/
theorem mkProcess_balanced {dist : Coord K → K} {first second : Config K}
    {rate : K} {basis : List Nat} {moves : List (Nat × Coord K)} {number n nT : Nat} {p : Proc K}
    (hp : mkProcess dist first second [] rate basis moves number = .ok p)
    (h1 : first.Good n nT) (h2 : second.Good n nT) (o1 : ∀ els ∈ first.elements, els.length = 1)
    (o2 : ∀ els ∈ second.elements, els.length = 1) : ∀ e ∈ p.matchList, e.updateTypes.sum = 0 := by
  unfold mkProcess at hp
  obtain ⟨us, hu, hp⟩ := bind_ok.1 hp
  obtain ⟨origin, -, hp⟩ := bind_ok.1 hp
  obtain ⟨entries, he, hp⟩ := bind_ok.1 hp
  obtain ⟨wm, hm, hp⟩ := bind_ok.1 hp
  have hp : p = _ := (Except.ok.inj hp).symm
  obtain ⟨-, m2, -⟩ := setMove_loop _ _ _ hm
  have hperm : p.matchList.Perm wm := by rw [hp]; exact (perm_sortP wm)
  intro e hem
  have hw : e ∈ wm := hperm.mem_iff.1 hem
  have hx : e.updateTypes ∈ entries.map (·.updateTypes) := by rw [← m2]; exact List.mem_map_of_mem hw
  obtain ⟨e0, he0, hee⟩ := List.mem_map.1 hx
  rw [← hee]
  obtain ⟨i, hi⟩ := List.mem_iff_getElem?.1 he0
  obtain ⟨i', h5, h6⟩ := mapMM_getElem?' he hi
  unfold entryOf at h6
  obtain ⟨c, q1, h6⟩ := bind_ok.1 h6
  obtain ⟨t, q2, h6⟩ := bind_ok.1 h6
  obtain ⟨u, q3, h6⟩ := bind_ok.1 h6
  have h6 : e0 = _ := (Except.ok.inj h6).symm
  rw [rd_ok] at q3
  have : e0.updateTypes = u := by rw [h6]
  rw [this]
  unfold updateTypesOf at hu
  rw [if_neg (by simp)] at hu
  obtain ⟨k, k1, k2⟩ := mapMM_getElem?' hu q3
  have hk : k < n := by
    rw [← h1.shape.elements]
    exact List.mem_range.1 (List.mem_of_getElem? k1)
  obtain ⟨t1, r1, k2⟩ := bind_ok.1 k2
  obtain ⟨t2, r2, k2⟩ := bind_ok.1 k2
  rw [rd_ok] at r1 r2
  rw [bucketDiff_sum t2 t1 u (by rw [h1.bucket _ (List.mem_of_getElem? r1), h2.bucket _ (List.mem_of_getElem? r2)]) k2]
  have l1 : k < first.elements.length := by rw [h1.shape.elements]; exact hk
  have l2 : k < second.elements.length := by rw [h2.shape.elements]; exact hk
  rw [h1.sum (List.getElem?_eq_getElem l1) r1, h2.sum (List.getElem?_eq_getElem l2) r2, o1 _ (List.getElem_mem _),
    o2 _ (List.getElem_mem _)]
  rfl

end
end KMC
