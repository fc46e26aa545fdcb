import Verif.Lemmas.Recoded
import Verif.Lemmas.Construct
import Verif.Props.EndToEnd
import Verif.Props.Event
import Verif.Samples.Events

/-!
# C67: the numbers of the types do not matter

The back end works with numbers in the place of the names of the types. With constant rates the same input, numbered in
another way or with further possible types that do not occur, makes the same run from the same random numbers.
-/

set_option linter.unusedSectionVars false

namespace KMC

open LatticeModel Interactions

/-- The second numbering has all names of the first one; the name with number `i` has number `σ i` there. -/
structure Renumbered (pt pt' : List (String × Nat)) (σ : Nat → Nat) : Prop where
  first : Numbering pt
  second : Numbering pt'
  wild : ("*", 0) ∈ pt
  wild' : ("*", 0) ∈ pt'
  names : ∀ name i, (name, i) ∈ pt → (name, σ i) ∈ pt'

variable {pt pt' : List (String × Nat)} {σ : Nat → Nat}

theorem Renumbered.recoding (h : Renumbered pt pt' σ) : Recoding pt.length pt'.length σ := by
  have name : ∀ i < pt.length, ∃ a, (a, i) ∈ pt := by
    intro i hi
    have : i ∈ pt.map Prod.snd := h.first.numbers.mem_iff.2 (List.mem_range.2 hi)
    obtain ⟨e, he, rfl⟩ := List.mem_map.1 this
    exact ⟨e.1, he⟩
  refine ⟨fun i hi => ?_, fun i hi j hj hij => ?_, ?_⟩
  · obtain ⟨a, ha⟩ := name i hi
    exact h.second.lt (h.names a i ha)
  · obtain ⟨a, ha⟩ := name i hi
    obtain ⟨b, hb⟩ := name j hj
    have h1 := h.names a i ha
    have h2 := h.names b j hb
    rw [hij] at h1
    obtain rfl := h.second.snd_inj h1 h2
    exact h.first.fst_inj ha hb
  · exact h.second.fst_inj (h.names _ _ h.wild) h.wild'

/-- **C67** Any two numberings are related in this way when the second one has all names of the first one. -/
theorem C67_numbers (h : Numbering pt) (h' : Numbering pt') (hw : ("*", 0) ∈ pt) (hw' : ("*", 0) ∈ pt')
    (hn : ∀ a ∈ pt.map Prod.fst, a ∈ pt'.map Prod.fst) : ∃ σ, Renumbered pt pt' σ := by
  have key : ∀ i : Nat, ∃ k : Nat, ∀ name, (name, i) ∈ pt → (name, k) ∈ pt' := by
    intro i
    by_cases hi : ∃ a, (a, i) ∈ pt
    · obtain ⟨a, ha⟩ := hi
      obtain ⟨e, he, hea⟩ := List.mem_map.1 (hn a (List.mem_map_of_mem (f := Prod.fst) ha))
      refine ⟨e.2, fun name hname => ?_⟩
      obtain rfl := h.snd_inj hname ha
      rw [← hea]
      exact he
    · exact ⟨0, fun name hname => absurd ⟨name, hname⟩ hi⟩
  choose σ hσ using key
  exact ⟨σ, h, h', hw, hw', fun name i hi => hσ i name hi⟩

/-! ### Input -/

theorem Renumbered.typeNumber (h : Renumbered pt pt' σ) (e : String) :
    Then (fun a b => b = σ a ∧ a < pt.length) (Config.typeNumber pt e) (Config.typeNumber pt' e) := by
  intro a b ha hb
  have mem : ∀ {l : List (String × Nat)} {k : Nat}, Config.typeNumber l e = .ok k → (e, k) ∈ l := by
    intro l k hk
    unfold Config.typeNumber at hk
    split at hk
    · next m hm =>
      cases hk
      obtain ⟨l1, l2, h1, -⟩ := List.lookup_eq_some_iff.1 hm
      rw [h1]
      simp
    · cases hk
  exact ⟨h.second.fst_inj (mem hb) (h.names _ _ (mem ha)), h.first.lt (mem ha)⟩

theorem Bucket.Recoded.wr {nT nT' : Nat} (hR : Recoding nT nT' σ) {b b' : Bucket} (h : Bucket.Recoded nT nT' σ b b') {i : Nat}
    (hi : i < nT) (v : Int) : Then (Bucket.Recoded nT nT' σ) (KMC.wr b i v) (KMC.wr b' (σ i) v) := by
  intro c c' hc hc'
  obtain ⟨-, rfl⟩ := wr_ok.1 hc
  obtain ⟨-, rfl⟩ := wr_ok.1 hc'
  exact h.set hR hi v

theorem Renumbered.bucketOf (h : Renumbered pt pt' σ) (els : List String) :
    Then (Bucket.Recoded pt.length pt'.length σ) (Config.bucketOf pt pt.length els) (Config.bucketOf pt' pt'.length els) := by
  have hR := h.recoding
  unfold Config.bucketOf
  refine Then.loop (Q := Eq) ?_ forall₂_eq (Bucket.Recoded.zeros hR)
  rintro b b' e _ hb rfl
  refine Then.bind (h.typeNumber e) fun t t' ht => ?_
  obtain ⟨rfl, hlt⟩ := ht
  refine Then.bind (R := Eq) ?_ fun v v' hv => ?_
  · unfold rd
    rw [hb.same t hlt]
    exact Then.refl
  · subst hv
    exact hb.wr hR hlt _

theorem Renumbered.updateFromInfo (h : Renumbered pt pt' σ) (info : List (String × Int)) :
    Then (Bucket.Recoded pt.length pt'.length σ) (KMC.updateFromInfo pt info) (KMC.updateFromInfo pt' info) := by
  have hR := h.recoding
  unfold KMC.updateFromInfo
  refine Then.loop (Q := Eq) ?_ forall₂_eq (Bucket.Recoded.zeros hR)
  rintro b b' e _ hb rfl
  refine Then.bind (h.typeNumber e.1) fun t t' ht => ?_
  obtain ⟨rfl, hlt⟩ := ht
  exact hb.wr hR hlt _

variable {K : Type} [Field K] [LinearOrder K]

/-- **C67** The configurations made from the same sites and names with two numberings differ only by the numbers. -/
theorem C67_configuration (h : Renumbered pt pt' σ) (coords : List (Coord K)) (elements : List (List String)) :
    Then (fun c c' => c.Recoded pt.length pt'.length σ c' ∧ c.elements = c'.elements ∧ c.atomIdElements = c'.atomIdElements ∧
        c.possibleTypes = pt ∧ c'.possibleTypes = pt' ∧
        ∀ (i : Nat) (name : String), c.typeNames[i]? = some name → c'.typeNames[σ i]? = some name)
      (Config.mk' coords elements pt) (Config.mk' coords elements pt') := by
  obtain ⟨names, n1, n2, -, n4⟩ := Config.typeNamesOf_ok h.first
  obtain ⟨names', n1', n2', -, n4'⟩ := Config.typeNamesOf_ok h.second
  unfold Config.mk'
  refine Then.bind Then.refl fun f f' hf => ?_
  subst hf
  refine Then.bind Then.refl fun aie aie' haie => ?_
  subst haie
  rw [n1, n1', ok_bind, ok_bind, n2, n2']
  refine Then.bind (Then.mapMM (Q := Eq) (S := Bucket.Recoded pt.length pt'.length σ) ?_ forall₂_eq) fun t t' ht => ?_
  · rintro e _ rfl
    exact h.bucketOf e
  · refine Then.ok ⟨⟨rfl, rfl, rfl, rfl, rfl, rfl, rfl, rfl, rfl, ht, ?_⟩, rfl, rfl, rfl, rfl, ?_⟩
    · show List.Forall₂ _ (List.replicate elements.length []) (List.replicate elements.length [])
      generalize elements.length = m
      induction m with
      | zero => exact .nil
      | succ m ih => rw [List.replicate_succ]; exact .cons .nil ih
    · intro i name hi
      exact (n4' _ _).2 (h.names _ _ ((n4 _ _).1 hi))

theorem bucketDiff_zip (b : Bucket) : ∀ a : Bucket, b.length = a.length → bucketDiff b a = .ok (List.zipWith (· - ·) b a) := by
  induction b with
  | nil => intro a _; rfl
  | cons x b ih =>
    intro a h
    cases a with
    | nil => cases h
    | cons y a =>
      unfold bucketDiff
      rw [ih a (by simpa using h), ok_bind]
      rfl

/-- What a process does to the names on a site, whatever their numbers. -/
theorem Bucket.Recoded.any {nT nT' : Nat} {a a' : Bucket} (h : Bucket.Recoded nT nT' σ a a') :
    a.any (fun v => decide (v ≠ 0)) = a'.any (fun v => decide (v ≠ 0)) := by
  rw [Bool.eq_iff_iff, List.any_eq_true, List.any_eq_true]
  have := h.absSum
  rw [Config.absSum_pos_iff, Config.absSum_pos_iff] at this
  simpa using this

theorem foldl_related {α β γ : Type} {Q : α → β → Prop} {f : γ → α → γ} {g : γ → β → γ} (hf : ∀ c a b, Q a b → f c a = g c b)
    {l : List α} {l' : List β} (h : List.Forall₂ Q l l') : ∀ c, l.foldl f c = l'.foldl g c := by
  induction h with
  | nil => intro c; rfl
  | cons h1 _ ih => intro c; rw [List.foldl_cons, List.foldl_cons, hf c _ _ h1]; exact ih _

theorem forall₂_getElem? {α β : Type} {Q : α → β → Prop} {l : List α} {l' : List β} (h : List.Forall₂ Q l l') (i : Nat) :
    (l[i]? = none ∧ l'[i]? = none) ∨ ∃ a b, l[i]? = some a ∧ l'[i]? = some b ∧ Q a b := by
  induction h generalizing i with
  | nil => exact .inl ⟨rfl, rfl⟩
  | @cons a b _ _ h1 _ ih =>
    cases i with
    | zero => exact .inr ⟨a, b, rfl, rfl, h1⟩
    | succ i => exact ih i

theorem idMovesOf_recoded {nT nT' : Nat} (dist : Coord K → K) {l l' : List (PEntry K)}
    (h : List.Forall₂ (PEntry.Recoded nT nT' σ) l l') : idMovesOf dist l = idMovesOf dist l' := by
  have ht : ∀ (i : Nat) (e e' : PEntry K), e.Recoded nT nT' σ e' → moveTarget dist l i e = moveTarget dist l' i e' := by
    intro i e e' he
    unfold moveTarget
    rw [h.length_eq]
    congr 1
    funext j
    rcases forall₂_getElem? h j with ⟨h1, h2⟩ | ⟨a, b, h1, h2, h3⟩
    · rw [h1, h2]
    · rw [h1, h2]
      simp only [h3.hasMove, h3.coord, he.coord, he.moveCoord]
  unfold idMovesOf
  rw [h.length_eq]
  congr 1
  funext i
  rcases forall₂_getElem? h i with ⟨h1, h2⟩ | ⟨a, b, h1, h2, h3⟩
  · rw [h1, h2]
  · rw [h1, h2]
    simp only [h3.hasMove, ht i a b h3]

/-- **C67** The processes made from configurations that differ by the numbers differ by the numbers. -/
theorem C67_process [FloorRing K] (h : Renumbered pt pt' σ) (dist : Coord K → K) {c1 c1' c2 c2' : Config K}
    (h1 : c1.Recoded pt.length pt'.length σ c1') (h2 : c2.Recoded pt.length pt'.length σ c2') (hp : c2.possibleTypes = pt)
    (hp' : c2'.possibleTypes = pt') (info : List (List (String × Int))) (rate : K) (basisSites : List Nat)
    (moves : List (Nat × Coord K)) (number : Nat) :
    Then (Proc.Recoded pt.length pt'.length σ) (mkProcess dist c1 c2 info rate basisSites moves number)
      (mkProcess dist c1' c2' info rate basisSites moves number) := by
  unfold mkProcess
  refine Then.bind (R := List.Forall₂ (Bucket.Recoded pt.length pt'.length σ)) ?_ fun u u' hu => ?_
  · unfold updateTypesOf
    rw [hp, hp', h1.sites]
    split
    · refine Then.mapMM (Q := Eq) ?_ forall₂_eq
      rintro i _ rfl
      exact h.updateFromInfo i
    · refine Then.mapMM (Q := Eq) ?_ forall₂_eq
      rintro i _ rfl
      refine Then.bind (Then.rd h1.types i) fun a a' ha => Then.bind (Then.rd h2.types i) fun b b' hb => ?_
      rw [bucketDiff_zip b a (hb.length.trans ha.length.symm), bucketDiff_zip b' a' (hb.length'.trans ha.length'.symm)]
      exact Then.ok (hb.zip (· - ·) rfl ha)
  rw [h1.coords]
  refine Then.bind Then.refl fun o o' ho => ?_
  subst ho
  rw [h1.sites]
  refine Then.bind (Then.mapMM (Q := Eq) (S := PEntry.Recoded pt.length pt'.length σ) ?_ forall₂_eq) fun l l' hl => ?_
  · rintro i _ rfl
    unfold entryOf
    rw [h1.coords]
    refine Then.bind Then.refl fun c c' hc => ?_
    subst hc
    refine Then.bind (Then.rd h1.types i) fun t t' ht => Then.bind (Then.rd hu i) fun w w' hw => ?_
    exact Then.ok ⟨rfl, rfl, rfl, rfl, ht, hw⟩
  refine Then.bind (Then.loop (Q := Eq) ?_ forall₂_eq hl) fun m m' hm => ?_
  · rintro a b x _ hab rfl
    unfold setMove
    refine Then.bind (Then.rd hab _) fun e e' he => ?_
    refine Then.wr hab ?_ _
    exact ⟨rfl, he.distance, he.coord, rfl, he.types, he.updates⟩
  have hs : List.Forall₂ (PEntry.Recoded pt.length pt'.length σ) (sortP m) (sortP m') := by
    refine forall₂_sort_alike hm ?_
    intro a _ b _ a' b' ha hb
    unfold PEntry.lt
    rw [ha.distance, ha.coord, hb.distance, hb.coord]
  refine Then.ok ⟨?_, hs⟩
  have e1 : (l.filter isAffecting).map (fun _ => 0) = (l'.filter isAffecting).map (fun _ => 0) := by
    clear hm
    induction hl with
    | nil => rfl
    | @cons a b _ _ g1 _ ih =>
      have e : isAffecting a = isAffecting b := g1.updates.any
      rw [List.filter_cons, List.filter_cons, e]
      split
      · rw [List.map_cons, List.map_cons, ih]
      · exact ih
  have e2 := idMovesOf_recoded dist hs
  have e3 := foldl_related (f := fun (m : K) e => if e.distance > m then e.distance else m)
    (g := fun (m : K) e => if e.distance > m then e.distance else m)
    (fun c a b (hab : PEntry.Recoded pt.length pt'.length σ a b) => by rw [hab.distance]) hl 0
  have e4 := foldl_related (f := fun r e => growRange r e.coord) (g := fun r e => growRange r e.coord)
    (fun c a b (hab : PEntry.Recoded pt.length pt'.length σ a b) => by rw [hab.coord]) hl 1
  unfold Proc.unlisted
  simp only [e1, e2, e3, e4]

/-- What a process is made from: the sites, the names before and after, or the changes of the names in their place. -/
structure ProcInput (K : Type) where
  coords : List (Coord K)
  before : List (List String)
  after : List (List String)
  info : List (List (String × Int))
  rate : K
  basisSites : List Nat
  moves : List (Nat × Coord K)

/-- The process, with the given numbering: two configurations and the constructor of the process. -/
def ProcInput.make [FloorRing K] (dist : Coord K → K) (pt : List (String × Nat)) (x : ProcInput K) (number : Nat) : M (Proc K) := do
  let c1 ← Config.mk' x.coords x.before pt
  let c2 ← Config.mk' x.coords x.after pt
  mkProcess dist c1 c2 x.info x.rate x.basisSites x.moves number

/-- All processes, numbered in turn. -/
def ProcInput.makeAll [FloorRing K] (dist : Coord K → K) (pt : List (String × Nat)) (xs : List (ProcInput K)) : M (List (Proc K)) :=
  mapMM (fun x => x.1.make dist pt x.2) xs.zipIdx

/-- **C67** The same input gives the same processes up to the numbers. -/
theorem C67_processes [FloorRing K] (h : Renumbered pt pt' σ) (dist : Coord K → K) (xs : List (ProcInput K)) :
    Then (List.Forall₂ (Proc.Recoded pt.length pt'.length σ)) (ProcInput.makeAll dist pt xs) (ProcInput.makeAll dist pt' xs) := by
  unfold ProcInput.makeAll
  refine Then.mapMM (Q := Eq) ?_ forall₂_eq
  rintro x _ rfl
  unfold ProcInput.make
  refine Then.bind (C67_configuration h _ _) fun c1 c1' h1 => Then.bind (C67_configuration h _ _) fun c2 c2' h2 => ?_
  exact C67_process h dist h1.1 h2.1 h2.2.2.2.1 h2.2.2.2.2.1 _ _ _ _ _

/-! ### Runs -/

variable [IsStrictOrderedRing K]
variable {env : Env K} {n nT nT' : Nat} {negLog : K → Option K} {cfg cfg' : Config K} {procs procs' : List (Proc K)}
variable {s s' : Sim K}

/-- **C67** Two models that differ by the numbers of the types, with the same random numbers: after every run the states
differ only by these numbers. The times, the tables of rates, the places of the atoms and the available sites are equal. -/
theorem C67_run (hR : Recoding nT nT' σ) (h0 : 0 < nT) (hn : 0 < env.nRanks) (hc : env.useCustomRates = false)
    (h : cfg.Recoded nT nT' σ cfg') (hp : List.Forall₂ (Proc.Recoded nT nT' σ) procs procs') {s0 s0' : Sim K}
    (hi : init env cfg procs = .ok s0) (hi' : init env cfg' procs' = .ok s0') (ds : List (Draws K))
    (hs : run env negLog ds s0 = .ok s) (hs' : run env negLog ds s0' = .ok s') : s.Recoded nT nT' σ s' :=
  run_recoded hR h0 hn hc negLog (init_recoded hR h0 hn hc h hp s0 s0' hi hi') ds s s' hs hs'

/-- **C67** What one sees of such states is the same: the time, where the atoms are, what is available where, and what is
on each site, up to the order of the names of several particles on one site. -/
theorem C67_seen (h : GoodRun env n nT negLog cfg procs s) (h' : GoodRun env n nT' negLog cfg' procs' s')
    (hs : s.Recoded nT nT' σ s')
    (hn : ∀ (i : Nat) (name : String), cfg.typeNames[i]? = some name → cfg'.typeNames[σ i]? = some name) :
    s.time = s'.time ∧ s.ms.cfg.atomId = s'.ms.cfg.atomId ∧ s.ms.cfg.atomIdCoords = s'.ms.cfg.atomIdCoords ∧
      s.ms.procs.map (·.sites) = s'.ms.procs.map (·.sites) ∧
      ∀ (i : Nat) (els els' : List String), s.ms.cfg.elements[i]? = some els → s'.ms.cfg.elements[i]? = some els' →
        els.Perm els' := by
  refine ⟨hs.time, hs.ms.cfg.atomId, hs.ms.cfg.atomIdCoords, ?_, ?_⟩
  · have := hs.ms.procs
    generalize s.ms.procs = l at this
    generalize s'.ms.procs = l' at this
    induction this with
    | nil => rfl
    | cons h1 _ ih => rw [List.map_cons, List.map_cons, ih, Matcher.Proc.Recoded.field h1 (·.sites) fun _ => rfl]
  · intro i els els' he he'
    have lt : i < s.ms.cfg.types.length := by
      rw [h.good.shape.types, ← h.good.shape.elements]
      exact (List.getElem?_eq_some_iff.1 he).1
    have lt' : i < s'.ms.cfg.types.length := by
      rw [h'.good.shape.types, ← h'.good.shape.elements]
      exact (List.getElem?_eq_some_iff.1 he').1
    have t1 := List.getElem?_eq_getElem lt
    have t2 := List.getElem?_eq_getElem lt'
    have hb := forall₂_get hs.ms.cfg.types i t1 t2
    obtain ⟨a1, a2⟩ := h.good.tallied i els _ he t1
    obtain ⟨b1, b2⟩ := h'.good.tallied i els' _ he' t2
    rw [List.perm_iff_count]
    intro name
    by_cases hm : name ∈ s.ms.cfg.typeNames
    · obtain ⟨k, hk⟩ := List.mem_iff_getElem?.1 hm
      have hkT : k < nT := by rw [← h.good.names]; exact (List.getElem?_eq_some_iff.1 hk).1
      have hk' : s'.ms.cfg.typeNames[σ k]? = some name := by
        rw [h'.names]
        rw [h.names] at hk
        exact hn k name hk
      have e1 := a2 k name hk
      have e2 := b2 (σ k) name hk'
      rw [hb.same k hkT, e1] at e2
      exact_mod_cast Option.some.inj e2
    · have z1 : els.count name = 0 := List.count_eq_zero.2 fun hx => hm (a1 name hx)
      by_cases hm' : name ∈ s'.ms.cfg.typeNames
      · obtain ⟨k, hk⟩ := List.mem_iff_getElem?.1 hm'
        have hkT : k < nT' := by rw [← h'.good.names]; exact (List.getElem?_eq_some_iff.1 hk).1
        have e2 := b2 k name hk
        rcases hb.cases e2 with ⟨j, hj, rfl, -⟩ | ⟨-, e0⟩
        · exfalso
          apply hm
          have hjl : j < s.ms.cfg.typeNames.length := by rw [h.good.names]; exact hj
          have hj1 := List.getElem?_eq_getElem hjl
          have hj2 : s'.ms.cfg.typeNames[σ j]? = some s.ms.cfg.typeNames[j] := by
            rw [h'.names]
            refine hn j _ ?_
            rw [← h.names]
            exact hj1
          rw [hk] at hj2
          rw [Option.some.inj hj2]
          exact List.getElem_mem hjl
        · rw [z1]
          exact_mod_cast e0.symm
      · rw [z1, List.count_eq_zero.2 fun hx => hm' (b1 name hx)]

/-- A model made from names, run with the given random numbers. -/
def runFrom [FloorRing K] (env : Env K) (negLog : K → Option K) (dist : Coord K → K) (pt : List (String × Nat)) (coords : List (Coord K))
    (elements : List (List String)) (xs : List (ProcInput K)) (ds : List (Draws K)) : M (Sim K) := do
  let cfg ← Config.mk' coords elements pt
  let procs ← ProcInput.makeAll dist pt xs
  let s ← init env cfg procs
  run env negLog ds s

/-- **C67** From the input to the end of the run: two numberings of the names, the same input and random numbers, and the
states differ only by the numbers of the types. -/
theorem C67_input [FloorRing K] (h : Renumbered pt pt' σ) (hn : 0 < env.nRanks) (hc : env.useCustomRates = false)
    (dist : Coord K → K) (coords : List (Coord K)) (elements : List (List String)) (xs : List (ProcInput K)) (ds : List (Draws K))
    (hs : runFrom env negLog dist pt coords elements xs ds = .ok s)
    (hs' : runFrom env negLog dist pt' coords elements xs ds = .ok s') : s.Recoded pt.length pt'.length σ s' := by
  unfold runFrom at hs hs'
  obtain ⟨c, c1, hs⟩ := bind_ok.1 hs
  obtain ⟨c', c1', hs'⟩ := bind_ok.1 hs'
  obtain ⟨ps, p1, hs⟩ := bind_ok.1 hs
  obtain ⟨ps', p1', hs'⟩ := bind_ok.1 hs'
  obtain ⟨a, a1, hs⟩ := bind_ok.1 hs
  obtain ⟨a', a1', hs'⟩ := bind_ok.1 hs'
  exact C67_run h.recoding (List.length_pos_of_mem h.wild) hn hc (C67_configuration h _ _ c c' c1 c1').1
    (C67_processes h dist xs ps ps' p1 p1') a1 a1' ds hs hs'

/-- **C67** When the first model can do a step the second one can, with the same random numbers, where multiplicities cannot
overflow. -/
theorem C67_step (h' : GoodRun env n nT' negLog cfg' procs' s') (hR : Recoding nT nT' σ) (h0 : 0 < nT)
    (hc : env.useCustomRates = false) {M : Nat} (hb : Bounded M cfg' procs') (hf : FewEnough M procs')
    (hs : s.Recoded nT nT' σ s') {d : Draws K} {s1 : Sim K} (hstep : step env negLog s d = .ok s1) :
    ∃ s1', step env negLog s' d = .ok s1' ∧ s1.Recoded nT nT' σ s1' := by
  suffices hex : ∃ s1', step env negLog s' d = .ok s1' by
    obtain ⟨s1', e⟩ := hex
    exact ⟨s1', e, step_recoded hR h0 h'.input.ranks hc negLog hs d s1 s1' hstep e⟩
  unfold step propagateTime at hstep ⊢
  obtain ⟨t, ht, hstep⟩ := bind_ok.1 hstep
  obtain ⟨r, hr, ht⟩ := bind_ok.1 ht
  obtain ⟨dt, hdt, ht⟩ := bind_ok.1 ht
  cases ht
  rw [hs.table] at hr
  rw [hr, ok_bind, hdt, ok_bind]
  unfold singleStep at hstep
  obtain ⟨e, he, -⟩ := bind_ok.1 hstep
  have he : select s.ms.procs s.table d.process d.site = .ok e := he
  obtain ⟨e', he', -⟩ := select_recoded hs.ms.procs _ _ _ he
  rw [hs.table] at he'
  obtain ⟨cfg1, procs1, hprep, hok, ⟨hI, htab⟩, hkept⟩ := h'.inv
  have hk := crowd_kept h'.input hprep M
  exact World.singleStep_bounded hok (s := { s' with time := s'.time + dt }) hI hf.1 (prepared_need hprep hf) hk
    (hkept _ hk (crowd_start h'.input hprep hb)) he'

/-- **C67** Every run of the first model is a run of the second one. -/
theorem C67_follows (hR : Recoding nT nT' σ) (h0 : 0 < nT)
    (hc : env.useCustomRates = false) {M : Nat} (hb : Bounded M cfg' procs') (hf : FewEnough M procs') :
    ∀ (ds : List (Draws K)) {s s1 : Sim K} {s' : Sim K}, GoodRun env n nT' negLog cfg' procs' s' → s.Recoded nT nT' σ s' →
      run env negLog ds s = .ok s1 → ∃ s1', run env negLog ds s' = .ok s1' ∧ s1.Recoded nT nT' σ s1' := by
  intro ds
  induction ds with
  | nil =>
    intro s s1 s' _ hs hrun
    obtain rfl : s = s1 := Except.ok.inj hrun
    exact ⟨s', rfl, hs⟩
  | cons d ds ih =>
    intro s s1 s' hg hs hrun
    unfold run at hrun ⊢
    rw [loopM_cons] at hrun ⊢
    obtain ⟨a, ha, hrun⟩ := bind_ok.1 hrun
    obtain ⟨a', ha', hrel⟩ := C67_step hg hR h0 hc hb hf hs ha
    rw [ha', ok_bind]
    exact ih (hg.step ha') hrel hrun

/-! Non-vacuity: the types A, B and C, and the same with C, A, D and B. An A walks along a chain of B, and turns a C into A. -/

namespace Sample

def otherTypes : List (String × Nat) := [("*", 0), ("C", 1), ("A", 2), ("D", 3), ("B", 4)]

def otherNumber : Nat → Nat
  | 1 => 2
  | 2 => 4
  | 3 => 1
  | i => i

def walkInput : List (ProcInput ℚ) :=
  [⟨[⟨0, 0, 0⟩, ⟨1, 0, 0⟩], [["A"], ["B"]], [["B"], ["A"]], [], 2, [0], []⟩,
   ⟨[⟨0, 0, 0⟩, ⟨1, 0, 0⟩], [["A"], ["C"]], [["A"], ["A"]], [], 3, [0], []⟩]

end Sample

theorem otherTypes_renumbered : Renumbered Sample.types Sample.otherTypes Sample.otherNumber where
  first := by decide
  second := by decide
  wild := by decide
  wild' := by decide
  names := by
    intro name i h
    simp only [Sample.types, List.mem_cons, Prod.mk.injEq, List.not_mem_nil, or_false] at h
    rcases h with ⟨rfl, rfl⟩ | ⟨rfl, rfl⟩ | ⟨rfl, rfl⟩ | ⟨rfl, rfl⟩ <;> decide

example :
    (∃ s, runFrom (Sample.env (Sample.chain 4 true)) Sample.lg Sample.dist1 Sample.types (Sample.chain 4 true).sites
        [["A"], ["B"], ["C"], ["B"]] Sample.walkInput [Sample.half, Sample.half] = .ok s ∧
      s.ms.cfg.types = [[0, 0, 1, 0], [0, 1, 0, 0], [0, 1, 0, 0], [0, 0, 1, 0]]) ∧
    ∃ s, runFrom (Sample.env (Sample.chain 4 true)) Sample.lg Sample.dist1 Sample.otherTypes (Sample.chain 4 true).sites
        [["A"], ["B"], ["C"], ["B"]] Sample.walkInput [Sample.half, Sample.half] = .ok s ∧
      s.ms.cfg.types = [[0, 0, 0, 0, 1], [0, 0, 1, 0, 0], [0, 0, 1, 0, 0], [0, 0, 0, 0, 1]] := by
  have get : ∀ {x : M (Sim ℚ)} {t : List Bucket}, x.map (fun s => s.ms.cfg.types) = .ok t → ∃ s, x = .ok s ∧ s.ms.cfg.types = t := by
    intro x t h
    cases x with
    | error e => cases h
    | ok s => exact ⟨s, rfl, Except.ok.inj h⟩
  exact ⟨get (by decide +kernel), get (by decide +kernel)⟩

end KMC
