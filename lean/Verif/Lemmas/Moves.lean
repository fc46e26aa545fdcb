import Verif.Lemmas.Run

/-!
# From the input processes to the events of a run
-/

set_option linter.unusedSectionVars false

namespace KMC

variable {K : Type _} [Field K] [LinearOrder K] [IsStrictOrderedRing K]
variable {env : Env K} {n nT : Nat} {negLog : K → Option K} {cfg cfg1 : Config K} {procs procs1 : List (Proc K)}

/-- `q` is `p` with wildcards inserted, apart from the books. -/
structure Proc.From (p q : Proc K) : Prop where
  keep : ∀ f : PEntry K → Bool, (∀ c, f (wildcardFor c) = false) → q.matchList.filter f = p.matchList.filter f
  entry : ∀ e ∈ q.matchList, e ∈ p.matchList ∨ ∃ c, e = wildcardFor c
  moved : q.moved = p.moved
  number : q.number = p.number
  basis : q.basisSites = p.basisSites

theorem Proc.From.rfl' (p q : Proc K) (h1 : q.matchList = p.matchList) (h2 : q.idMoves = p.idMoves)
    (h3 : q.number = p.number) (h4 : q.basisSites = p.basisSites) : p.From q := by
  refine ⟨fun f _ => by rw [h1], fun e he => .inl (by rw [← h1]; exact he), ?_, h3, h4⟩
  unfold Proc.moved
  rw [h1, h2]

theorem from_update {cfg : Config K} {L : LatticeMap} {p p' : Proc K}
    (h : Interactions.updateMatchListOf cfg L p = .ok p') : p.From p' := by
  obtain ⟨-, -, hlen, hmv, hrest⟩ := C12_insertion cfg L p p' h
  rcases updateMatchListOf_aligned h with rfl | ⟨cml, hcm, hal⟩
  · exact .rfl' _ _ rfl rfl rfl rfl
  · by_cases hb : p.basisSites.length = 1
    · refine ⟨fun f hf => hal.filter f hf, ?_, ?_, by rw [hrest], by rw [hrest]⟩
      · intro e he
        rcases hal.sublist.2 e he with h1 | ⟨c, -, -, h1⟩
        · exact .inl h1
        · exact .inr ⟨c, h1⟩
      · unfold Proc.moved
        have h1 : p'.idMoves.map (fun mv => (p'.matchList[mv.1]?).bind fun e => (p'.matchList[mv.2]?).map fun f => (e, f)) =
            p.idMoves.map (fun mv => (p.matchList[mv.1]?).bind fun e => (p.matchList[mv.2]?).map fun f => (e, f)) := by
          apply List.ext_getElem?
          intro i
          rw [List.getElem?_map, List.getElem?_map]
          cases hi : p.idMoves[i]? with
          | none =>
            have : p'.idMoves[i]? = none := by
              rw [List.getElem?_eq_none_iff] at hi ⊢
              omega
            rw [this]
            rfl
          | some mv =>
            obtain ⟨mv', hi'⟩ : ∃ mv', p'.idMoves[i]? = some mv' :=
              ⟨_, List.getElem?_eq_getElem (by rw [hlen]; exact (List.getElem?_eq_some_iff.1 hi).1)⟩
            obtain ⟨⟨e, e1, e2⟩, ⟨f, f1, f2⟩⟩ := hmv i mv mv' hi hi' hb
            rw [hi', Option.map_some, Option.map_some, e1, e2, f1, f2]
        have h2 := congrArg (List.filterMap id) h1
        rw [List.filterMap_map, List.filterMap_map] at h2
        exact h2
    · have : p' = p := by
        unfold Interactions.updateMatchListOf at h
        split at h
        · next b hb' => rw [hb'] at hb; simp at hb
        · cases h; rfl
      subst this
      exact .rfl' _ _ rfl rfl rfl rfl

theorem prepared_from (hp : Prepared env cfg procs cfg1 procs1) {j : Nat} {p1 : Proc K}
    (hj : procs1[j]? = some p1) : ∃ p, procs[j]? = some p ∧ p.From p1 := by
  obtain ⟨h1, h2⟩ := hp
  unfold Interactions.updateProcessMatchLists at h2
  split at h2
  · cases h2
    unfold Interactions.clearMatching at hj
    rw [List.getElem?_map, Option.map_eq_some_iff] at hj
    obtain ⟨p, hpj, rfl⟩ := hj
    exact ⟨p, hpj, .rfl' _ _ rfl rfl rfl rfl⟩
  · obtain ⟨q, hq, hqp⟩ := mapMM_getElem?' h2 hj
    unfold Interactions.clearMatching at hq
    rw [List.getElem?_map, Option.map_eq_some_iff] at hq
    obtain ⟨p, hpj, rfl⟩ := hq
    obtain ⟨a1, a2, a3, a4, a5⟩ := from_update hqp
    exact ⟨p, hpj, a1, a2, a3, a4, a5⟩

theorem Proc.From.still {p p1 q : Proc K} (h : p.From p1) (hs : q.still = p1.still) : p.From q := by
  have e1 : q.matchList = p1.matchList := by have h := congrArg Proc.matchList hs; exact h
  have e2 : q.idMoves = p1.idMoves := by have h := congrArg Proc.idMoves hs; exact h
  have e3 : q.number = p1.number := by have h := congrArg Proc.number hs; exact h
  have e4 : q.basisSites = p1.basisSites := by have h := congrArg Proc.basisSites hs; exact h
  obtain ⟨a1, a2, a3, a4, a5⟩ := h
  refine ⟨by rw [e1]; exact a1, by rw [e1]; exact a2, ?_, by rw [e3]; exact a4, by rw [e4]; exact a5⟩
  rw [← a3]
  unfold Proc.moved
  rw [e1, e2]

/-- The process of the input that a process of the run comes from. -/
theorem World.source (hp : Prepared env cfg procs cfg1 procs1) {range : Nat} {ms : MState K}
    (hI : (World.of env n nT range cfg1 procs1).Inv ms) {j : Nat} {q : Proc K} (hq : ms.procs[j]? = some q) :
    ∃ p, procs[j]? = some p ∧ p.From q := by
  obtain ⟨A, hI⟩ := hI
  have h1 : (procs1.map Proc.still)[j]? = some q.still := hI.proc hq
  rw [List.getElem?_map, Option.map_eq_some_iff] at h1
  obtain ⟨p1, h2, h3⟩ := h1
  obtain ⟨p, h4, h5⟩ := prepared_from hp h2
  exact ⟨p, h4, h5.still h3.symm⟩

theorem Proc.From.acts {p q : Proc K} (h : p.From q) (hw : p.WellFormed nT) {e : PEntry K} (he : e ∈ q.matchList) :
    e.Acts ↔ e.Changes := by
  refine ⟨acts_changes, fun hc => ?_⟩
  rcases h.entry e he with h1 | ⟨c, rfl⟩
  · exact acts_of_changes (hw.slot e h1) hc
  · exact absurd hc (not_changes_wildcardFor c)

theorem Proc.From.mem {p q : Proc K} (h : p.From q) {e : PEntry K} (he : e ∈ q.matchList)
    (ha : e.Changes ∨ e.hasMove = true) : e ∈ p.matchList := by
  rcases h.entry e he with h1 | ⟨c, rfl⟩
  · exact h1
  · rcases ha with ha | ha
    · exact absurd ha (not_changes_wildcardFor c)
    · cases ha

/-! ### Totals -/

/-- Changing some entries of a list changes the sum accordingly. -/
theorem sum_update (es : List (Nat × Int)) (a b : List Int) (hl : b.length = a.length)
    (hn : (es.map (·.1)).Nodup) (hlt : ∀ e ∈ es, e.1 < a.length)
    (hat : ∀ e ∈ es, ∀ x, a[e.1]? = some x → b[e.1]? = some (x + e.2))
    (hoff : ∀ i, i ∉ es.map (·.1) → b[i]? = a[i]?) : b.sum = a.sum + (es.map (·.2)).sum := by
  induction es generalizing a with
  | nil =>
    have : b = a := List.ext_getElem? fun i => hoff i (by simp)
    simp [this]
  | cons e es ih =>
    rw [List.map_cons, List.nodup_cons] at hn
    have he : e.1 < a.length := hlt e (by simp)
    have h1 := ih (a.set e.1 (a[e.1] + e.2)) (by simpa using hl) hn.2
      (fun f hf => by simpa using hlt f (by simp [hf]))
      (by
        intro f hf x hx
        have hne : e.1 ≠ f.1 := fun heq => hn.1 (heq ▸ List.mem_map_of_mem hf)
        rw [List.getElem?_set_ne hne] at hx
        exact hat f (by simp [hf]) x hx)
      (by
        intro i hi
        by_cases hie : e.1 = i
        · rw [← hie, hat e (by simp) _ (List.getElem?_eq_getElem he), List.getElem?_set_self he]
        · rw [List.getElem?_set_ne hie]
          exact hoff i (by simpa using ⟨fun h => hie h.symm, by simpa using hi⟩))
    have h2 : (a.set e.1 (a[e.1] + e.2)).sum = a.sum + e.2 := by
      have h3 : ∀ (a : List Int) (i : Nat) (hi : i < a.length) (u : Int), (a.set i (a[i] + u)).sum = a.sum + u := by
        intro a
        induction a with
        | nil => intro i hi; simp at hi
        | cons x a iha =>
          intro i hi u
          cases i with
          | zero => simp [List.set]; omega
          | succ i =>
            simp only [List.set_cons_succ, List.getElem_cons_succ, List.sum_cons]
            rw [iha]
            omega
      exact h3 a e.1 he e.2
    rw [h1, h2, List.map_cons, List.sum_cons]
    omega

theorem acting_fst {pml : List (PEntry K)} {sml : List (CEntry K)} (h : pml.length ≤ sml.length) :
    (acting pml sml).map (·.1) = pml.filter (fun e => decide e.Acts) := by
  induction pml generalizing sml with
  | nil => simp [acting]
  | cons p ps ih =>
    cases sml with
    | nil => simp at h
    | cons c cs =>
      have := ih (sml := cs) (by simpa using h)
      unfold acting at this ⊢
      rw [List.zip_cons_cons, List.filter_cons, List.filter_cons]
      split <;> simp_all

theorem filter_congr_mem {α : Type _} {l : List α} {f g : α → Bool} (h : ∀ a ∈ l, f a = g a) :
    l.filter f = l.filter g := List.filter_congr h

theorem Proc.From.changing {p q : Proc K} (h : p.From q) (hw : p.WellFormed nT) :
    q.matchList.filter (fun e => decide e.Acts) = p.matchList.filter (fun e => decide e.Changes) := by
  rw [← h.keep (fun e => decide e.Changes) (fun c => decide_eq_false (not_changes_wildcardFor c))]
  apply List.filter_congr
  intro e he
  rw [decide_eq_decide]
  exact h.acts hw he

/-- Only the changing entries contribute to the sum of the updates. -/
theorem sum_changing (l : List (PEntry K)) (k : Nat) :
    ((l.filter (fun e => decide e.Changes)).map (fun e => e.updateTypes.getD k 0)).sum =
      (l.map (fun e => e.updateTypes.getD k 0)).sum := by
  induction l with
  | nil => rfl
  | cons e l ih =>
    rw [List.filter_cons, List.map_cons, List.sum_cons]
    split
    · rw [List.map_cons, List.sum_cons, ih]
    · next hc =>
      rw [ih]
      have : e.updateTypes.getD k 0 = 0 := by
        by_contra h0
        apply hc
        rw [List.getD_eq_getElem?_getD] at h0
        cases hk : e.updateTypes[k]? with
        | none => rw [hk] at h0; exact absurd rfl h0
        | some u =>
          rw [hk] at h0
          exact decide_eq_true ⟨u, List.mem_of_getElem? hk, h0⟩
      omega

namespace World

variable {W : World K} {s : MState K} {j site : Nat} {q : Proc K} {sk : List (CEntry K)} {c1 c2 : Config K}
  {aff : List Nat}

/-- The number of particles of type `k` changes by the sum of the updates. -/
theorem Event.total (h : W.Event s j site q sk c1 c2 aff) (hg : s.cfg.Good W.n W.nT) (k : Nat) :
    c2.total k = s.cfg.total k +
      ((q.matchList.filter (fun e => decide e.Acts)).map (fun e => e.updateTypes.getD k 0)).sum := by
  have hlen : c2.types.length = s.cfg.types.length := by rw [h.types]; exact h.done.typesLen
  have := sum_update ((acting q.matchList (seen s.cfg.types sk)).map (fun e => (e.2.index, e.1.updateTypes.getD k 0)))
    (s.cfg.types.map (fun t => t.getD k 0)) (c2.types.map (fun t => t.getD k 0)) (by simpa using hlen)
    (by simpa [Function.comp_def] using h.ready.nodup)
    (by
      intro e he
      obtain ⟨x, hx, rfl⟩ := List.mem_map.1 he
      have := h.changed_lt (List.mem_map_of_mem hx)
      simpa [hg.shape.types] using this)
    (by
      intro e he x hx
      obtain ⟨a, ha, rfl⟩ := List.mem_map.1 he
      rw [List.getElem?_map, Option.map_eq_some_iff] at hx
      obtain ⟨t, ht, rfl⟩ := hx
      rw [List.getElem?_map, h.typeAt ha ht, Option.map_some, Option.some.injEq]
      have hl1 : t.length = W.nT := hg.bucket t (List.mem_of_getElem? ht)
      have hl2 := h.ready.update _ (Config.mem_acting ha).1 (Config.mem_acting ha).2.2
      simp only [List.getD_eq_getElem?_getD, List.getElem?_zipWith]
      by_cases hk : k < W.nT
      · rw [List.getElem?_eq_getElem (by omega), List.getElem?_eq_getElem (by omega)]
        rfl
      · rw [List.getElem?_eq_none_iff.2 (by omega), List.getElem?_eq_none_iff.2 (by omega)]
        rfl)
    (by
      intro i hi
      rw [List.getElem?_map, List.getElem?_map, h.typeOff]
      simpa [changed] using hi)
  unfold Config.total
  rw [this, ← acting_fst h.ready.len]
  simp [Function.comp_def]

end World

/-! ### Atom ids -/

/-- Ids carried from site to site: `mvs` are pairs of sites. -/
structure Carried (ids ids' : List Nat) (mvs : List (Nat × Nat)) : Prop where
  len : ids'.length = ids.length
  sources : (mvs.map (·.1)).Nodup
  targets : (mvs.map (·.2)).Nodup
  same : ∀ i, i ∈ mvs.map (·.1) ↔ i ∈ mvs.map (·.2)
  at' : ∀ mv ∈ mvs, ids'[mv.2]? = ids[mv.1]?
  off : ∀ i, i ∉ mvs.map (·.2) → ids'[i]? = ids[i]?

/-- Where the id of a site was before. -/
theorem Carried.origin {ids ids' : List Nat} {mvs : List (Nat × Nat)} (h : Carried ids ids' mvs) (i : Nat) :
    ∃ i0, ids'[i]? = ids[i0]? ∧ ((i0, i) ∈ mvs ∨ i0 = i ∧ i ∉ mvs.map (·.1)) := by
  by_cases hi : i ∈ mvs.map (·.2)
  · obtain ⟨mv, hmv, rfl⟩ := List.mem_map.1 hi
    exact ⟨mv.1, h.at' mv hmv, .inl hmv⟩
  · exact ⟨i, h.off i hi, .inr ⟨rfl, fun h1 => hi ((h.same i).1 h1)⟩⟩

theorem eq_of_nodup_map {α β : Type _} {f : α → β} {l : List α} (h : (l.map f).Nodup) {a b : α} (ha : a ∈ l)
    (hb : b ∈ l) (hab : f a = f b) : a = b := List.inj_on_of_nodup_map h ha hb hab

/-- No id is duplicated. -/
theorem Carried.nodup {ids ids' : List Nat} {mvs : List (Nat × Nat)} (h : Carried ids ids' mvs) (hn : ids.Nodup) :
    ids'.Nodup := by
  rw [List.nodup_iff_injective_getElem]
  rintro ⟨a, ha⟩ ⟨b, hb⟩ hab
  simp only at hab
  obtain ⟨a0, ha0, ha1⟩ := h.origin a
  obtain ⟨b0, hb0, hb1⟩ := h.origin b
  rw [List.getElem?_eq_getElem ha] at ha0
  rw [List.getElem?_eq_getElem hb] at hb0
  have h0 : a0 = b0 := by
    obtain ⟨a2, a3⟩ := List.getElem?_eq_some_iff.1 ha0.symm
    obtain ⟨b2, b3⟩ := List.getElem?_eq_some_iff.1 hb0.symm
    have : (⟨a0, a2⟩ : Fin ids.length) = ⟨b0, b2⟩ := List.nodup_iff_injective_getElem.1 hn (by
      show ids[a0] = ids[b0]
      rw [a3, b3, hab])
    exact congrArg Fin.val this
  subst h0
  have : a = b := by
    rcases ha1 with ha1 | ⟨rfl, ha1⟩ <;> rcases hb1 with hb1 | ⟨rfl, hb1⟩
    · exact congrArg Prod.snd (eq_of_nodup_map h.sources ha1 hb1 rfl)
    · exact absurd (List.mem_map_of_mem (f := Prod.fst) ha1) hb1
    · exact absurd (List.mem_map_of_mem (f := Prod.fst) hb1) ha1
    · rfl
  subst this
  rfl

/-- Equal active entries are at the same position. -/
theorem active_pos_inj {p : Proc K} (hp : ProcOk nT p) {a b : Nat} {e : PEntry K} (ha : p.matchList[a]? = some e)
    (hb : p.matchList[b]? = some e) (he : e.Active) : a = b := by
  have hsame : samePoint e (⟨0, e.distance, e.coord, []⟩ : CEntry K) = true := by
    unfold samePoint ptSame epsi
    simp
  have key : ∀ a b : Nat, p.matchList[a]? = some e → p.matchList[b]? = some e → ¬ a < b := by
    intro a b ha hb hab
    obtain ⟨ha1, ha2⟩ := List.getElem?_eq_some_iff.1 ha
    obtain ⟨hb1, hb2⟩ := List.getElem?_eq_some_iff.1 hb
    have := List.pairwise_iff_getElem.1 hp.points a b ha1 hb1 hab
    rw [ha2, hb2] at this
    exact this he he _ ⟨hsame, hsame⟩
  have h1 := key a b ha hb
  have h2 := key b a hb ha
  omega

theorem mem_moved {p : Proc K} {x : PEntry K × PEntry K} (h : x ∈ p.moved) :
    ∃ mv ∈ p.idMoves, p.matchList[mv.1]? = some x.1 ∧ p.matchList[mv.2]? = some x.2 := by
  unfold Proc.moved at h
  rw [List.mem_filterMap] at h
  obtain ⟨mv, hmv, h⟩ := h
  rw [Option.bind_eq_some_iff] at h
  obtain ⟨e, he, h⟩ := h
  rw [Option.map_eq_some_iff] at h
  obtain ⟨f, hf, rfl⟩ := h
  exact ⟨mv, hmv, he, hf⟩

theorem moved_mem {p : Proc K} {mv : Nat × Nat} {e f : PEntry K} (hmv : mv ∈ p.idMoves)
    (he : p.matchList[mv.1]? = some e) (hf : p.matchList[mv.2]? = some f) : (e, f) ∈ p.moved := by
  unfold Proc.moved
  rw [List.mem_filterMap]
  exact ⟨mv, hmv, by simp [he, hf]⟩

/-- The moves of different list positions, compared by their entries. -/
theorem moved_pairwise {p : Proc K} {R : PEntry K × PEntry K → PEntry K × PEntry K → Prop} (h : p.moved.Pairwise R) :
    p.idMoves.Pairwise (fun a b => ∀ e f e' f', p.matchList[a.1]? = some e → p.matchList[a.2]? = some f →
      p.matchList[b.1]? = some e' → p.matchList[b.2]? = some f' → R (e, f) (e', f')) := by
  unfold Proc.moved at h
  rw [List.pairwise_filterMap] at h
  refine h.imp ?_
  intro a b hab e f e' f' h1 h2 h3 h4
  exact hab (e, f) (by simp [h1, h2]) (e', f') (by simp [h3, h4])

theorem Proc.Closed.of_from {p q : Proc K} (h : p.Closed) (hf : p.From q) : q.Closed := by
  obtain ⟨h1, h2, h3⟩ := h
  refine ⟨by rw [hf.moved]; exact h1, by rw [hf.moved]; exact h2, ?_⟩
  intro e he hm
  rw [hf.moved]
  exact h3 e (hf.mem he (.inr hm)) hm

namespace World

variable {W : World K} {s : MState K} {j site : Nat} {q : Proc K} {sk : List (CEntry K)} {c1 c2 : Config K}
  {aff : List Nat}

theorem Event.same (hW : W.Ok) (h : W.Event s j site q sk c1 c2 aff) :
    ∀ e ∈ seen s.cfg.types sk, ∀ e' ∈ seen s.cfg.types sk, e.index = e'.index →
      e.coord = e'.coord ∧ e.distance = e'.distance := by
  intro e he e' he' hi
  obtain ⟨d, hd, rfl⟩ := List.mem_map.1 he
  obtain ⟨d', hd', rfl⟩ := List.mem_map.1 he'
  exact hW.same sk (List.mem_of_getElem? h.skel) d hd d' hd' hi

/-- The pairs of sites between which the event carries ids. -/
def carries (s : MState K) (q : Proc K) (sk : List (CEntry K)) : List (Nat × Nat) :=
  q.idMoves.map fun mv => (Config.moveFrom (seen s.cfg.types sk) mv, Config.moveTo (seen s.cfg.types sk) mv)

/-- The ends of an id move. -/
theorem Event.ends (h : W.Event s j site q sk c1 c2 aff) {mv : Nat × Nat} (hmv : mv ∈ q.idMoves) :
    ∃ e f c d, q.matchList[mv.1]? = some e ∧ q.matchList[mv.2]? = some f ∧ e.hasMove = true ∧ f.hasMove = true ∧
      (seen s.cfg.types sk)[mv.1]? = some c ∧ (seen s.cfg.types sk)[mv.2]? = some d ∧
      Config.moveFrom (seen s.cfg.types sk) mv = c.index ∧ Config.moveTo (seen s.cfg.types sk) mv = d.index := by
  obtain ⟨e, f, he, hf, h1, h2⟩ := h.procOk.moves mv hmv
  obtain ⟨h3, h4⟩ := h.ready.moves mv hmv
  exact ⟨e, f, _, _, he, hf, h1, h2, List.getElem?_eq_getElem h3, List.getElem?_eq_getElem h4,
    Config.moveFrom_eq (List.getElem?_eq_getElem h3), Config.moveTo_eq (List.getElem?_eq_getElem h4)⟩

/-- Positions of active entries and sites determine each other. -/
theorem Event.inj (hW : W.Ok) (h : W.Event s j site q sk c1 c2 aff) {a b : Nat} {e f : PEntry K} {c d : CEntry K}
    (ha : q.matchList[a]? = some e) (hb : q.matchList[b]? = some f) (hc : (seen s.cfg.types sk)[a]? = some c)
    (hd : (seen s.cfg.types sk)[b]? = some d) (he : e.Active) (hf : f.Active) (hi : c.index = d.index) : a = b := by
  obtain ⟨l1, l2, hl, hfit⟩ := h.fits
  exact active_index_inj (p := q.still) h.procOk hl hfit (h.same hW) ha hb hc hd he hf hi

theorem Event.carried (hW : W.Ok) (h : W.Event s j site q sk c1 c2 aff) (hg : s.cfg.Good W.n W.nT) (hcl : q.Closed) :
    Carried s.cfg.atomId c2.atomId (carries s q sk) := by
  have hid1 : c1.atomId = s.cfg.atomId := by rw [h.done.rest]
  have hsrc : ((carries s q sk).map (·.1)).Nodup := by
    unfold carries List.Nodup
    rw [List.map_map, List.pairwise_map]
    have h1 := hcl.sources
    unfold List.Nodup at h1
    rw [List.pairwise_map] at h1
    refine (moved_pairwise h1).imp_of_mem ?_
    intro a b ha hb hab heq
    obtain ⟨e, f, c, d, e1, e2, e3, e4, e5, e6, e7, e8⟩ := h.ends ha
    obtain ⟨e', f', c', d', g1, g2, g3, g4, g5, g6, g7, g8⟩ := h.ends hb
    simp only [Function.comp_apply] at heq
    rw [e7, g7] at heq
    have := h.inj hW e1 g1 e5 g5 (.inr e3) (.inr g3) heq
    refine hab e f e' f' e1 e2 g1 g2 ?_
    rw [this, g1, Option.some.injEq] at e1
    exact e1.symm
  have htgt : ((carries s q sk).map (·.2)).Nodup := by
    unfold carries List.Nodup
    rw [List.map_map, List.pairwise_map]
    have h1 := hcl.targets
    unfold List.Nodup at h1
    rw [List.pairwise_map] at h1
    refine (moved_pairwise h1).imp_of_mem ?_
    intro a b ha hb hab heq
    obtain ⟨e, f, c, d, e1, e2, e3, e4, e5, e6, e7, e8⟩ := h.ends ha
    obtain ⟨e', f', c', d', g1, g2, g3, g4, g5, g6, g7, g8⟩ := h.ends hb
    simp only [Function.comp_apply] at heq
    rw [e8, g8] at heq
    have := h.inj hW e2 g2 e6 g6 (.inr e4) (.inr g4) heq
    refine hab e f e' f' e1 e2 g1 g2 ?_
    rw [this, g2, Option.some.injEq] at e2
    exact e2.symm
  have hup : Config.idUpdates s.cfg.atomId (seen s.cfg.types sk) q.idMoves =
      (carries s q sk).map (fun mv => (s.cfg.atomId.getD mv.1 0, mv.2)) := by
    unfold Config.idUpdates carries
    rw [List.map_map]
    rfl
  refine ⟨?_, hsrc, htgt, ?_, ?_, ?_⟩
  · rw [h.moved.idsLen, hid1]
  · intro i
    constructor
    · intro hi
      simp only [carries, List.map_map, List.mem_map, Function.comp_apply] at hi ⊢
      obtain ⟨mv, hmv, rfl⟩ := hi
      obtain ⟨e, f, c, d, e1, e2, e3, e4, e5, e6, e7, e8⟩ := h.ends hmv
      obtain ⟨x, hx, hxe⟩ := List.mem_map.1 (hcl.moving e (List.mem_of_getElem? e1) e3).2
      obtain ⟨mv', hmv', x1, x2⟩ := mem_moved hx
      rw [hxe] at x2
      have hpos : mv'.2 = mv.1 := active_pos_inj (p := q.still) h.procOk x2 e1 (.inr e3)
      refine ⟨mv', hmv', ?_⟩
      rw [e7, Config.moveTo_eq (c := c) (by rw [hpos]; exact e5)]
    · intro hi
      simp only [carries, List.map_map, List.mem_map, Function.comp_apply] at hi ⊢
      obtain ⟨mv, hmv, rfl⟩ := hi
      obtain ⟨e, f, c, d, e1, e2, e3, e4, e5, e6, e7, e8⟩ := h.ends hmv
      obtain ⟨x, hx, hxe⟩ := List.mem_map.1 (hcl.moving f (List.mem_of_getElem? e2) e4).1
      obtain ⟨mv', hmv', x1, x2⟩ := mem_moved hx
      rw [hxe] at x1
      have hpos : mv'.1 = mv.2 := active_pos_inj (p := q.still) h.procOk x1 e2 (.inr e4)
      refine ⟨mv', hmv', ?_⟩
      rw [e8, Config.moveFrom_eq (c := d) (by rw [hpos]; exact e6)]
  · intro mv hmv
    have h1 := h.moved.idAt (by rw [hup, List.map_map]; exact htgt) (s.cfg.atomId.getD mv.1 0, mv.2)
      (by rw [hup]; exact List.mem_map.2 ⟨mv, hmv, rfl⟩)
    simp only at h1
    rw [h1]
    obtain ⟨m, hm, rfl⟩ := List.mem_map.1 hmv
    obtain ⟨e, f, c, d, e1, e2, e3, e4, e5, e6, e7, e8⟩ := h.ends hm
    simp only
    rw [e7]
    have hlt : c.index < s.cfg.atomId.length := by
      rw [hg.shape.atomId]; exact h.ready.index _ (List.mem_of_getElem? e5)
    rw [List.getD_eq_getElem?_getD, List.getElem?_eq_getElem hlt]
    rfl
  · intro i hi
    rw [h.moved.idOff i ?_, hid1]
    rw [hup, List.map_map]
    exact hi

/-- A site with a moving entry is the source of a move. -/
theorem Event.mover (h : W.Event s j site q sk c1 c2 aff) (hcl : q.Closed) {k : Nat} {e : PEntry K} {c : CEntry K}
    (he : q.matchList[k]? = some e) (hc : (seen s.cfg.types sk)[k]? = some c) (hm : e.hasMove = true) :
    c.index ∈ (carries s q sk).map (·.1) := by
  obtain ⟨x, hx, hxe⟩ := List.mem_map.1 (hcl.moving e (List.mem_of_getElem? he) hm).1
  obtain ⟨mv', hmv', x1, x2⟩ := mem_moved hx
  rw [hxe] at x1
  have hpos : mv'.1 = k := active_pos_inj (p := q.still) h.procOk x1 he (.inr hm)
  simp only [carries, List.map_map, List.mem_map, Function.comp_apply]
  refine ⟨mv', hmv', ?_⟩
  rw [Config.moveFrom_eq (c := c) (by rw [hpos]; exact hc)]

/-- The elements of atoms are those at their sites. -/
def ElementsOk (c : Config K) : Prop :=
  ∀ (i id : Nat) (els : List String), c.atomId[i]? = some id → c.elements[i]? = some els →
    c.atomIdElements[id]? = els[0]?

theorem Event.elementsOk (hW : W.Ok) (h : W.Event s j site q sk c1 c2 aff) (hg : s.cfg.Good W.n W.nT) (hcl : q.Closed)
    (hn : s.cfg.atomId.Nodup) (hel : ElementsOk s.cfg) : ElementsOk c2 := by
  have hca := h.carried hW hg hcl
  have hid1 : c1.atomId = s.cfg.atomId := by rw [h.done.rest]
  have hup : Config.idUpdates s.cfg.atomId (seen s.cfg.types sk) q.idMoves =
      (carries s q sk).map (fun mv => (s.cfg.atomId.getD mv.1 0, mv.2)) := by
    unfold Config.idUpdates carries
    rw [List.map_map]
    rfl
  have hinj : ∀ (a b id : Nat), s.cfg.atomId[a]? = some id → s.cfg.atomId[b]? = some id → a = b := by
    intro a b id ha hb
    obtain ⟨a2, a3⟩ := List.getElem?_eq_some_iff.1 ha
    obtain ⟨b2, b3⟩ := List.getElem?_eq_some_iff.1 hb
    have : (⟨a, a2⟩ : Fin s.cfg.atomId.length) = ⟨b, b2⟩ := List.nodup_iff_injective_getElem.1 hn (by
      show s.cfg.atomId[a] = s.cfg.atomId[b]
      rw [a3, b3])
    exact congrArg Fin.val this
  have hsrcid : ∀ mv ∈ carries s q sk, s.cfg.atomId[mv.1]? = some (s.cfg.atomId.getD mv.1 0) := by
    intro mv hmv
    obtain ⟨m, hm, rfl⟩ := List.mem_map.1 hmv
    obtain ⟨e, f, c, d, e1, e2, e3, e4, e5, e6, e7, e8⟩ := h.ends hm
    simp only
    rw [e7]
    have hlt : c.index < s.cfg.atomId.length := by
      rw [hg.shape.atomId]; exact h.ready.index _ (List.mem_of_getElem? e5)
    rw [List.getD_eq_getElem?_getD, List.getElem?_eq_getElem hlt]
    rfl
  intro i id els hi hels
  obtain ⟨i0, h0, h1⟩ := hca.origin i
  rw [hi] at h0
  rcases h1 with h1 | ⟨rfl, h1⟩
  · have h2 := hsrcid _ h1
    simp only at h2
    rw [← h0, Option.some.injEq] at h2
    refine h.moved.elAt ?_ (id, i) ?_ els (by rw [← h.elements]; exact hels)
    · rw [hup, List.map_map]
      have : (carries s q sk).Pairwise (fun a b => a.1 ≠ b.1) := by
        have := hca.sources
        unfold List.Nodup at this
        rwa [List.pairwise_map] at this
      unfold List.Nodup
      rw [List.pairwise_map]
      refine this.imp_of_mem ?_
      intro a b ha hb hab heq
      simp only [Function.comp_apply] at heq
      exact hab (hinj _ _ _ (hsrcid a ha) (by rw [heq]; exact hsrcid b hb))
    · rw [hup, List.mem_map]
      exact ⟨(i0, i), h1, by rw [h2]⟩
  · have h2 : c2.atomIdElements[id]? = c1.atomIdElements[id]? := by
      apply h.moved.elOff
      rw [hup, List.map_map, List.mem_map]
      rintro ⟨mv, hmv, heq⟩
      simp only [Function.comp_apply] at heq
      have := hinj _ _ _ (hsrcid mv hmv) (by rw [heq]; exact h0.symm)
      exact h1 (List.mem_map.2 ⟨mv, hmv, this⟩)
    rw [h2]
    by_cases hc : i0 ∈ changed s q sk
    · obtain ⟨e, he, rfl⟩ := List.mem_map.1 hc
      obtain ⟨k, k1, k2, -⟩ := acting_pos he
      have hm : e.1.hasMove = false := by
        cases hm : e.1.hasMove with
        | false => rfl
        | true => exact absurd (h.mover hcl k1 k2 hm) h1
      exact h.done.idElAt hn e he id h0.symm hm els (by rw [← h.elements]; exact hels)
    · rw [h.done.idElOff id ?_]
      · exact hel i0 id els h0.symm (by rw [← h.elementOff hc]; exact hels)
      · intro e he _ heq
        have := hinj _ _ _ heq h0.symm
        exact hc (List.mem_map.2 ⟨e, he, this⟩)

end World

end KMC
