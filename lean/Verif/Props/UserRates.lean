import Verif.Model.PyRate
import Verif.Props.Calculator

/-!
# Property C35: what the user's rate function is given
-/

set_option linter.unusedSectionVars false

namespace KMC

variable {K : Type _} [Field K] [LinearOrder K] [IsStrictOrderedRing K]
variable {env : Env K} {n nT : Nat} {negLog : K → Option K} {cfg : Config K} {procs : List (Proc K)} {s : Sim K}

open LatticeModel PyProc

namespace PyRate

theorem pyGet_of {α : Type _} {l : List α} {j : Nat} {a : α} (h : l[j]? = some a) : pyGet l (j : Int) = .ok a := by
  have hj := (List.getElem?_eq_some_iff.1 h).1
  unfold pyGet pyIndex
  rw [if_pos (by omega), if_pos (by omega)]
  simp [ok_bind, h]

theorem range_get (n i : Nat) : (List.range n)[i]? = if i < n then some i else none := by
  split
  · next h => exact List.getElem?_range h
  · next h => rw [List.getElem?_eq_none_iff, List.length_range]; omega

/-- The list of one site says how many of each type are there, in the order of the type numbers; types that are not
there, and the wildcard in the first slot, are left out. -/
def Counts (names : List String) (els : List String) (l : List (Int × String)) : Prop :=
  (l.map Prod.snd).Sublist (names.drop 1) ∧
  ∀ k a, (k, a) ∈ l ↔ a ∈ names.drop 1 ∧ 0 < k ∧ k = (els.count a : Int)

theorem slot_loop {names : List String} {b : Bucket} (hl : names.length = b.length) (js : List Nat)
    (hj : ∀ j ∈ js, j + 1 < b.length) (acc : List (Int × String)) :
    loopM (slot names b) js acc = .ok (acc ++ js.filterMap (fun j =>
      if b.getD (j + 1) 0 > 0 then some (b.getD (j + 1) 0, names.getD (j + 1) "") else none)) := by
  induction js generalizing acc with
  | nil => simp [loopM]
  | cons j js ih =>
    have h1 : j + 1 < b.length := hj j (by simp)
    have hslot : slot names b acc j = .ok (if b.getD (j + 1) 0 > 0 then acc ++ [(b.getD (j + 1) 0, names.getD (j + 1) "")] else acc) := by
      unfold slot
      rw [pyGet_of (List.getElem?_eq_getElem (show j + 1 < names.length by omega)), ok_bind, rd_of_lt h1, ok_bind]
      simp [List.getD_eq_getElem?_getD, List.getElem?_eq_getElem h1, List.getElem?_eq_getElem (show j + 1 < names.length by omega)]
    unfold loopM
    rw [hslot]
    dsimp only
    rw [ih (fun j hj' => hj j (by simp [hj']))]
    rw [List.filterMap_cons]
    split
    · next h0 => simp
    · next h0 => simp

theorem siteTypes_lists {names els : List String} {b : Bucket} (hl : names.length = b.length) (hnd : names.Nodup)
    (ht : ∀ (k : Nat) (name : String), names[k]? = some name → b[k]? = some (els.count name : Int)) :
    ∃ l, siteTypes names b = .ok l ∧ Counts names els l := by
  unfold siteTypes
  rw [slot_loop hl _ (fun j hj => by rw [List.mem_range] at hj; omega), List.nil_append]
  refine ⟨_, rfl, ?_, ?_⟩
  · have hd : names.drop 1 = (List.range (b.length - 1)).map (fun j => names.getD (j + 1) "") := by
      apply List.ext_getElem?
      intro i
      rw [List.getElem?_drop, List.getElem?_map, range_get]
      by_cases hi : i < b.length - 1
      · rw [if_pos hi, Option.map_some, List.getD_eq_getElem?_getD, Nat.add_comm 1 i,
          List.getElem?_eq_getElem (show i + 1 < names.length by omega)]
        rfl
      · rw [if_neg hi, Option.map_none, List.getElem?_eq_none_iff]
        omega
    rw [hd, List.map_filterMap]
    generalize List.range (b.length - 1) = js
    induction js with
    | nil => simp
    | cons j js ih =>
      rw [List.filterMap_cons, List.map_cons]
      by_cases h0 : b.getD (j + 1) 0 > 0
      · simp only [h0, if_true, Option.map_some]
        exact ih.cons_cons _
      · simp only [h0, if_false, Option.map_none]
        exact ih.cons _
  · intro k a
    rw [List.mem_filterMap]
    constructor
    · rintro ⟨j, hj, h⟩
      rw [List.mem_range] at hj
      split at h
      · next h0 =>
        cases h
        have hjn : j + 1 < names.length := by omega
        have hn : names[j + 1]? = some names[j + 1] := List.getElem?_eq_getElem hjn
        have hb := ht _ _ hn
        simp only [List.getD_eq_getElem?_getD, hn, hb, Option.getD_some] at h0 ⊢
        refine ⟨?_, h0, trivial⟩
        rw [List.mem_iff_getElem?]
        exact ⟨j, by rw [List.getElem?_drop, Nat.add_comm]; exact hn⟩
      · cases h
    · rintro ⟨ha, hk, rfl⟩
      obtain ⟨j, hj⟩ := List.mem_iff_getElem?.1 ha
      rw [List.getElem?_drop, Nat.add_comm] at hj
      have hjn := (List.getElem?_eq_some_iff.1 hj).1
      have hb := ht _ _ hj
      refine ⟨j, List.mem_range.2 (by omega), ?_⟩
      simp only [List.getD_eq_getElem?_getD, hj, hb, Option.getD_some]
      rw [if_pos hk]

theorem flatten_getElem? (geo : List (Coord K)) : ∀ i, i < geo.length → ∃ c, geo[i]? = some c ∧
    (flatten geo)[3 * i]? = some c.x ∧ (flatten geo)[3 * i + 1]? = some c.y ∧ (flatten geo)[3 * i + 2]? = some c.z := by
  induction geo with
  | nil => intro i hi; simp at hi
  | cons c geo ih =>
    intro i hi
    cases i with
    | zero => exact ⟨c, rfl, rfl, rfl, rfl⟩
    | succ i =>
      obtain ⟨d, h1, h2, h3, h4⟩ := ih i (by simpa using hi)
      exact ⟨d, h1, h2, h3, h4⟩

theorem flatten_length (geo : List (Coord K)) : (flatten geo).length = geo.length * 3 := by
  induction geo with
  | nil => rfl
  | cons c geo ih =>
    show (flatten geo).length + 1 + 1 + 1 = _
    rw [ih, List.length_cons]
    omega

/-- The rows are the coordinates. -/
theorem reshape_flatten (geo : List (Coord K)) :
    reshape geo.length (flatten geo) = .ok (geo.map (fun c => [c.x, c.y, c.z])) := by
  unfold reshape
  rw [if_pos (flatten_length geo)]
  have : ∀ i ∈ List.range geo.length, (do
      let x ← rd (flatten geo) (3 * i)
      let y ← rd (flatten geo) (3 * i + 1)
      let z ← rd (flatten geo) (3 * i + 2)
      return [x, y, z] : M (List K)) = .ok ((geo.map (fun c => [c.x, c.y, c.z])).getD i []) := by
    intro i hi
    obtain ⟨c, h1, h2, h3, h4⟩ := flatten_getElem? geo i (List.mem_range.1 hi)
    rw [rd_of_getElem? h2, ok_bind, rd_of_getElem? h3, ok_bind, rd_of_getElem? h4, ok_bind, List.getD_eq_getElem?_getD,
      List.getElem?_map, h1]
    rfl
  rw [mapMM_eq_map this]
  congr 1
  apply List.ext_getElem?
  intro i
  rw [List.getElem?_map, range_get]
  by_cases hi : i < geo.length
  · rw [if_pos hi, Option.map_some, List.getD_eq_getElem?_getD, List.getElem?_map, List.getElem?_eq_getElem hi]
    rfl
  · rw [if_neg hi, Option.map_none, eq_comm, List.getElem?_eq_none_iff, List.length_map]
    omega

theorem addLoop_eq (a b : Bucket) : Bucket.addLoop a b = List.zipWith (· + ·) a b := by
  induction a generalizing b with
  | nil => rfl
  | cons x a ih =>
    cases b with
    | nil => rfl
    | cons y b => show _ :: _ = _ :: _; rw [ih]

/-- Sums of buckets of one size. -/
theorem after_ok {occ upd : List Bucket} {m : Nat} (hl : occ.length = upd.length) (ho : ∀ b ∈ occ, b.length = m)
    (hu : ∀ b ∈ upd, b.length = m) : after occ upd = .ok (List.zipWith (List.zipWith (· + ·)) occ upd) := by
  unfold after
  have : ∀ i ∈ List.range upd.length, (do
      let o ← pyGet occ (i : Int)
      let u ← pyGet upd (i : Int)
      Bucket.add o u : M Bucket) = .ok ((List.zipWith (List.zipWith (· + ·)) occ upd).getD i []) := by
    intro i hi
    rw [List.mem_range] at hi
    have h1 : occ[i]? = some occ[i] := List.getElem?_eq_getElem (by omega)
    have h2 : upd[i]? = some upd[i] := List.getElem?_eq_getElem (by omega)
    rw [pyGet_of h1, ok_bind, pyGet_of h2, ok_bind, List.getD_eq_getElem?_getD, List.getElem?_zipWith, h1, h2]
    unfold Bucket.add
    rw [if_neg (by rw [ho _ (List.mem_of_getElem? h1), hu _ (List.mem_of_getElem? h2)]; simp), addLoop_eq]
    rfl
  rw [mapMM_eq_map this]
  congr 1
  apply List.ext_getElem?
  intro i
  rw [List.getElem?_map, range_get]
  by_cases hi : i < upd.length
  · rw [if_pos hi, Option.map_some, List.getD_eq_getElem?_getD, List.getElem?_zipWith,
      List.getElem?_eq_getElem hi, List.getElem?_eq_getElem (show i < occ.length by omega)]
    rfl
  · rw [if_neg hi, Option.map_none, eq_comm, List.getElem?_eq_none_iff, List.length_zipWith]
    omega

theorem toPython_isOk {bs : List Bucket} {names : List String} (h : ∀ b ∈ bs, names.length = b.length) :
    ∃ l, toPython bs names = .ok l := by
  apply mapMM_isOk
  intro b hb
  unfold siteTypes
  rw [slot_loop (h b hb) _ (fun j hj => by rw [List.mem_range] at hj; omega)]
  exact ⟨_, rfl⟩

end PyRate

open PyRate

/-- **C35** The rate function of the user is called with the coordinates in rows, one for each shown site, the types
before and after, the rate constant, the number of the process and the place of the central site. -/
theorem C35_user_plain (geo : List (Coord K)) (before after : List String) (rc : K) (pn : Nat) (g : Coord K) :
    callback (.plain geo before after rc pn g) =
      .ok ⟨geo.map (fun c => [c.x, c.y, c.z]), .names before, .names after, rc, pn, (g.x, g.y, g.z)⟩ := by
  unfold callback
  dsimp only
  rw [reshape_flatten]
  rfl

/-- The sizes of the buckets that are shown. -/
theorem shown_sizes (h : GoodRun env n nT negLog cfg procs s) {j : Nat} {p : Proc K} (hp : s.ms.procs[j]? = some p)
    {site : Nat} {near : List (CEntry K)} {geo : List (Coord K)} {occ upd : List Bucket} {names : List String} {rc : K}
    {pn : Nat} {g : Coord K} (hb : p.bucketProcess = true) (ha : Shown s.ms.cfg p site near (.buckets geo occ upd names rc pn g)) :
    (∀ b ∈ occ, b.length = nT) ∧ (∀ b ∈ upd, b.length = nT) := by
  obtain ⟨occ', upd', g', h1, -, hol, hul, h2, h3⟩ := ha.buckets hb
  simp only [RateArgs.buckets.injEq] at h1
  obtain ⟨-, rfl, rfl, -⟩ := h1
  have ho : ∀ b ∈ occ, b.length = nT := by
    intro b hb
    obtain ⟨k, hk⟩ := List.mem_iff_getElem?.1 hb
    have hkl : k < near.length := by rw [← hol]; exact (List.getElem?_eq_some_iff.1 hk).1
    rw [h2 k _ (List.getElem?_eq_getElem hkl)] at hk
    exact h.good.bucket b (List.mem_of_getElem? hk)
  refine ⟨ho, ?_⟩
  intro b hb
  obtain ⟨k, hk⟩ := List.mem_iff_getElem?.1 hb
  have hkl : k < near.length := by rw [← hul]; exact (List.getElem?_eq_some_iff.1 hk).1
  obtain ⟨u, hu, hu'⟩ := h3 k hkl
  rw [hk, Option.some.injEq] at hu
  subst hu
  cases hx : p.matchList[k]? with
  | none =>
    rw [hx] at hu'
    obtain ⟨-, t, ht, hl⟩ := hu'
    rw [hl, ho t ht]
  | some x =>
    rw [hx] at hu'
    have hu' : b = x.updateTypes := hu'
    rw [hu']
    obtain ⟨cfg1, procs1, hprep, hok, ⟨⟨A, hI⟩, -⟩, -⟩ := h.inv
    exact (hok.proc p.still (List.mem_of_getElem? (hI.proc hp))).updates x (List.mem_of_getElem? hx)

/-- **C35** For a bucket process the rate function of the user is always reached. It is shown the sites in rows, the
rate constant, the number of the process and the place of the central site, and before the event the numbers of
particles of each type that are on each shown site. -/
theorem C35_user_before (h : GoodRun env n nT negLog cfg procs s) {j : Nat} {p : Proc K} (hp : s.ms.procs[j]? = some p)
    (hb : p.bucketProcess = true) {site : Nat} {near : List (CEntry K)} {a : RateArgs K} (ha : Shown s.ms.cfg p site near a) :
    ∃ before after g, callback a = .ok ⟨near.map (fun e => [e.coord.x, e.coord.y, e.coord.z]), .counts before, .counts after,
        p.rate, p.number, (g.x, g.y, g.z)⟩ ∧ s.ms.cfg.coords[site]? = some g ∧
      before.length = near.length ∧ after.length = near.length ∧
      ∀ (k : Nat) (e : CEntry K), near[k]? = some e →
        ∃ els l, s.ms.cfg.elements[e.index]? = some els ∧ before[k]? = some l ∧ Counts s.ms.cfg.typeNames els l := by
  obtain ⟨occ, upd, g, rfl, hg, hol, hul, h2, h3⟩ := ha.buckets hb
  obtain ⟨s1, s2⟩ := shown_sizes h hp hb ha
  have hn := h.good.names
  have haft := after_ok (m := nT) (hol.trans hul.symm) s1 s2
  have hlen : ∀ b ∈ List.zipWith (List.zipWith (· + ·)) occ upd, b.length = nT := by
    intro b hb
    obtain ⟨k, hk⟩ := List.mem_iff_getElem?.1 hb
    rw [List.getElem?_zipWith] at hk
    cases e1 : occ[k]? with
    | none => rw [e1] at hk; cases hk
    | some x =>
      cases e2 : upd[k]? with
      | none => rw [e1, e2] at hk; cases hk
      | some y =>
        rw [e1, e2] at hk
        cases hk
        rw [List.length_zipWith, s1 _ (List.mem_of_getElem? e1), s2 _ (List.mem_of_getElem? e2), min_self]
  obtain ⟨before, hbef⟩ := toPython_isOk (bs := occ) (names := s.ms.cfg.typeNames) (fun b hb => by rw [hn, s1 b hb])
  obtain ⟨after, haft'⟩ := toPython_isOk (bs := List.zipWith (List.zipWith (· + ·)) occ upd) (names := s.ms.cfg.typeNames)
    (fun b hb => by rw [hn, hlen b hb])
  refine ⟨before, after, g, ?_, hg, ?_, ?_, ?_⟩
  · unfold callback
    dsimp only
    rw [haft, ok_bind, reshape_flatten, ok_bind, hbef, ok_bind, haft', ok_bind, List.map_map]
    rfl
  · rw [mapMM_length hbef, hol]
  · rw [mapMM_length haft', List.length_zipWith, hol, hul, min_self]
  · intro k e he
    have hk : k < occ.length := by rw [hol]; exact (List.getElem?_eq_some_iff.1 he).1
    have ht : s.ms.cfg.types[e.index]? = some occ[k] := by rw [← h2 k e he, List.getElem?_eq_getElem hk]
    have hei : e.index < s.ms.cfg.elements.length := by
      have := (List.getElem?_eq_some_iff.1 ht).1
      rw [h.good.shape.types] at this
      rw [h.good.shape.elements]
      exact this
    have hels : s.ms.cfg.elements[e.index]? = some s.ms.cfg.elements[e.index] := List.getElem?_eq_getElem hei
    obtain ⟨l, hl1, hl2⟩ := mapMM_getElem? hbef (List.getElem?_eq_getElem hk)
    obtain ⟨l', hl3, hl4⟩ := siteTypes_lists (els := s.ms.cfg.elements[e.index]) (b := occ[k])
      (by rw [hn, s1 _ (List.getElem_mem hk)]) h.good.distinct (h.good.tallied _ _ _ hels ht).2
    rw [hl2] at hl3
    obtain rfl := Except.ok.inj hl3
    exact ⟨_, l, hels, hl1, hl4⟩

/-- **C35** After the event the numbers of particles at the shown sites are those that were shown to the user as
'after', on lattices where no site is listed twice. -/
theorem C35_user_after (h : GoodRun env n nT negLog cfg procs s) {s' : Sim K} {u1 u2 : K}
    {r : Nat × Nat × List (Proc K)} (hsel : select s.ms.procs s.table u1 u2 = .ok r)
    (hs : singleStep env s u1 u2 = .ok s') (h' : GoodRun env n nT negLog cfg procs s') {p : Proc K}
    (hp : s.ms.procs[r.1]? = some p) {ml : List (CEntry K)}
    (hml : Surroundings env procs s.ms.cfg r.2.1 = .ok ml) (hnd : (ml.map (·.index)).Nodup) (hb : p.bucketProcess = true)
    {a : RateArgs K} (ha : Shown s.ms.cfg p r.2.1 (ml.takeWhile (fun e => decide (e.distance ≤ p.cutoff))) a)
    {x : Args K} (hx : callback a = .ok x) :
    ∃ after, x.after = .counts after ∧
      ∀ (k : Nat) (e : CEntry K), (ml.takeWhile (fun e => decide (e.distance ≤ p.cutoff)))[k]? = some e →
        ∃ els l, s'.ms.cfg.elements[e.index]? = some els ∧ after[k]? = some l ∧ Counts s'.ms.cfg.typeNames els l := by
  obtain ⟨occ, upd, g, rfl, hg, hol, hul, h2, h3⟩ := ha.buckets hb
  obtain ⟨s1, s2⟩ := shown_sizes h hp hb ha
  have haft := after_ok (m := nT) (hol.trans hul.symm) s1 s2
  unfold callback at hx
  dsimp only at hx
  rw [haft, ok_bind, reshape_flatten, ok_bind] at hx
  obtain ⟨before, hbef, hx⟩ := bind_ok.1 hx
  obtain ⟨after, haft', hx⟩ := bind_ok.1 hx
  cases hx
  refine ⟨after, rfl, ?_⟩
  intro k e he
  obtain ⟨t, u, t', e1, e2, e3, e4⟩ := C35_updates h hsel hs hp hml hnd hb ha he
  have hn : s.ms.cfg.typeNames = s'.ms.cfg.typeNames := h.names.trans h'.names.symm
  have lt : t.length = nT := s1 t (List.mem_of_getElem? e1)
  have lu : u.length = nT := s2 u (List.mem_of_getElem? e2)
  have lt' : t'.length = nT := h'.good.bucket t' (List.mem_of_getElem? e3)
  have hsum : List.zipWith (· + ·) t u = t' := by
    apply List.ext_getElem
    · rw [List.length_zipWith, lt, lu, lt', min_self]
    · intro i hi hi'
      have := e4 i
      rw [List.getD_eq_getElem?_getD, List.getD_eq_getElem?_getD, List.getD_eq_getElem?_getD,
        List.getElem?_eq_getElem hi', List.getElem?_eq_getElem (show i < t.length by omega),
        List.getElem?_eq_getElem (show i < u.length by omega)] at this
      rw [List.getElem_zipWith]
      exact this.symm
  have hz : (List.zipWith (List.zipWith (· + ·)) occ upd)[k]? = some t' := by
    rw [List.getElem?_zipWith, e1, e2, ← hsum]
  obtain ⟨l, hl1, hl2⟩ := mapMM_getElem? haft' hz
  have hei : e.index < s'.ms.cfg.elements.length := by
    have := (List.getElem?_eq_some_iff.1 e3).1
    rw [h'.good.shape.types] at this
    rw [h'.good.shape.elements]
    exact this
  have hels : s'.ms.cfg.elements[e.index]? = some s'.ms.cfg.elements[e.index] := List.getElem?_eq_getElem hei
  obtain ⟨l', hl3, hl4⟩ := siteTypes_lists (els := s'.ms.cfg.elements[e.index]) (b := t')
    (by rw [h'.good.names, lt']) h'.good.distinct (h'.good.tallied _ _ _ hels e3).2
  rw [← hn, hl2] at hl3
  obtain rfl := Except.ok.inj hl3
  exact ⟨_, l, hels, hl1, hl4⟩

/-! ### The read past the end -/

/-- **C35** As written the loop that looks for the cutoff ends without reading past the end of the list exactly when an
entry is beyond the cutoff, and then the entries it finds are those of the model. -/
theorem C35_end_read (cutoff : K) (l r : List (CEntry K)) :
    Matcher.withinCutoffRead cutoff l = .ok r ↔ r = Matcher.withinCutoff cutoff l ∧ ∃ e ∈ l, cutoff < e.distance := by
  induction l generalizing r with
  | nil => simp [Matcher.withinCutoffRead]
  | cons e l ih =>
    unfold Matcher.withinCutoffRead Matcher.withinCutoff
    by_cases he : e.distance ≤ cutoff
    · rw [if_pos he, List.takeWhile_cons_of_pos (by simpa using he), bind_ok]
      constructor
      · rintro ⟨r', h1, h2⟩
        cases h2
        obtain ⟨h3, f, hf, hf'⟩ := (ih r').1 h1
        exact ⟨by rw [h3]; rfl, f, by simp [hf], hf'⟩
      · rintro ⟨rfl, f, hf, hf'⟩
        rcases List.mem_cons.1 hf with rfl | hf
        · exact absurd he (not_le.2 hf')
        · exact ⟨_, (ih _).2 ⟨rfl, f, hf, hf'⟩, rfl⟩
    · rw [if_neg he, List.takeWhile_cons_of_neg (by simpa using he)]
      constructor
      · intro h
        cases h
        exact ⟨rfl, e, by simp, not_le.1 he⟩
      · rintro ⟨rfl, -⟩
        rfl

namespace Sample

/-- One A moves to the next site with a B and leaves a C, with a custom rate. -/
def customShift : M (List (Proc ℚ)) := do
  let a ← Config.mk' ([⟨0, 0, 0⟩, ⟨1, 0, 0⟩]) [["A"], ["B"]] types
  let p ← mkCustomProcess dist1 a a [[("A", -1), ("C", 1)], [("A", 1)]] 2 [0] 1 [] 0 false
  return [p]

end Sample

set_option synthInstance.maxSize 5000 in
set_option synthInstance.maxHeartbeats 200000 in
/-- C35. In a run on a ring of four sites with a bucket process, two A on the first site: what the user is shown. The
list of the sites around the first site has three entries, all within the cutoff, so the loop as written reads past its
end. -/
theorem C35_past_end : ∃ (cfg : Config ℚ) (procs : List (Proc ℚ)) (s : Sim ℚ) (p : Proc ℚ) (ml : List (CEntry ℚ)) (a : RateArgs ℚ),
    GoodRun (Sample.byNumber Sample.ring) 4 4 Sample.lg cfg procs s ∧ s.ms.procs[0]? = some p ∧
    p.bucketProcess = true ∧ p.custom = true ∧ p.sites = [0] ∧ s.ms.cfg.matchLists[0]? = some ml ∧
    Matcher.rateArgs s.ms.cfg p 0 = .ok a ∧
    callback a = .ok ⟨[[0, 0, 0], [-1, 0, 0], [1, 0, 0]],
      .counts [[(2, "A")], [(1, "C")], [(1, "B")]],
      .counts [[(1, "A"), (1, "C")], [(1, "C")], [(1, "A"), (1, "B")]], 2, 0, (0, 0, 0)⟩ ∧
    Matcher.withinCutoffRead p.cutoff ml = .error .outOfBounds := by
  obtain ⟨cfg, procs, h1, h2, h3⟩ := Sample.goodCheck_ok (env := Sample.byNumber Sample.ring) (P := Sample.ring)
    (els := [["A", "A"], ["B"], ["B"], ["C"]]) (procs := Sample.customShift) (by decide +kernel)
  obtain ⟨s, hs, hf⟩ := Sample.exists_of_map
    (x := Sample.go (Sample.byNumber Sample.ring) Sample.ring [["A", "A"], ["B"], ["B"], ["C"]] Sample.customShift [])
    (f := fun s => (s.ms.procs.take 1).map (fun p => (p.bucketProcess, p.custom, p.sites,
      (Matcher.rateArgs s.ms.cfg p 0 >>= callback).toOption,
      (rd s.ms.cfg.matchLists 0).toOption.map (fun ml => decide (Matcher.withinCutoffRead p.cutoff ml = .error .outOfBounds)))))
    (b := [(true, true, [0], some ⟨[[0, 0, 0], [-1, 0, 0], [1, 0, 0]],
      .counts [[(2, "A")], [(1, "C")], [(1, "B")]],
      .counts [[(1, "A"), (1, "C")], [(1, "C")], [(1, "A"), (1, "B")]], 2, 0, (0, 0, 0)⟩, some true)]) (by decide +kernel)
  have hg : CustomGeometry (Sample.byNumber Sample.ring) cfg procs :=
    Sample.geometryCheck_ok (P := Sample.ring) (els := [["A", "A"], ["B"], ["B"], ["C"]]) (procs := Sample.customShift)
      (by decide +kernel) h1 h2
  have hn : Sample.ring.sites.length = 4 := by decide +kernel
  rw [hn] at h3
  have hrun : GoodRun (Sample.byNumber Sample.ring) 4 4 Sample.lg cfg procs s :=
    ⟨h3, fun _ => Sample.byNumber_keys h3 hg, Sample.reached_of_go hs h1 h2⟩
  cases hp : s.ms.procs with
  | nil => rw [hp] at hf; cases hf
  | cons p ps =>
    rw [hp] at hf
    simp only [List.take_succ_cons, List.take_zero, List.map_cons, List.map_nil, List.cons.injEq, Prod.mk.injEq, and_true] at hf
    obtain ⟨a1, a2, a3, a4, a5⟩ := hf
    cases ha : Matcher.rateArgs s.ms.cfg p 0 with
    | error e => rw [ha] at a4; cases a4
    | ok a =>
      rw [ha, ok_bind] at a4
      cases hc : callback a with
      | error e => rw [hc] at a4; cases a4
      | ok x =>
        rw [hc] at a4
        have a4 := Option.some.inj a4
        cases hm : rd s.ms.cfg.matchLists 0 with
        | error e => rw [hm] at a5; cases a5
        | ok ml =>
          rw [hm] at a5
          have a5 := Option.some.inj a5
          rw [decide_eq_true_eq] at a5
          exact ⟨cfg, procs, s, p, ml, a, hrun, by rw [hp]; rfl, a1, a2, a3, rd_ok.1 hm, ha, by rw [hc, a4], a5⟩

/-- Non-vacuity of the theorems on bucket processes. -/
example : ∃ (cfg : Config ℚ) (procs : List (Proc ℚ)) (s : Sim ℚ) (p : Proc ℚ) (ml : List (CEntry ℚ)) (a : RateArgs ℚ),
    GoodRun (Sample.byNumber Sample.ring) 4 4 Sample.lg cfg procs s ∧ s.ms.procs[0]? = some p ∧ p.bucketProcess = true ∧
    Shown s.ms.cfg p 0 (ml.takeWhile (fun e => decide (e.distance ≤ p.cutoff))) a := by
  obtain ⟨cfg, procs, s, p, ml, a, h, hp, hb, -, -, hml, ha, -⟩ := C35_past_end
  exact ⟨cfg, procs, s, p, ml, a, h, hp, hb, shown_of_args hml (h.slot hp) ha⟩

end KMC
