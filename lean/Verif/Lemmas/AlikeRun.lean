import Verif.Lemmas.Alike

/-!
# Whole runs that see the same points
-/

set_option linter.unusedSectionVars false

namespace KMC

open LatticeModel

variable {K : Type} [Field K] [LinearOrder K]

theorem rd_agree {α β : Type} {f : α → β} {xs ys : List α} (h : xs.map f = ys.map f) (i : Nat) :
    (rd xs i).map f = (rd ys i).map f := by
  rw [← rd_map, ← rd_map, h]

theorem wr_agree {α β : Type} {f : α → β} {xs ys : List α} (h : xs.map f = ys.map f) (i : Nat) {a b : α} (hab : f a = f b) :
    (wr xs i a).map (List.map f) = (wr ys i b).map (List.map f) := by
  rw [← wr_map, ← wr_map, h, hab]

theorem set_patterns {ps : List (Proc K)} {i : Nat} {p q : Proc K} (h : ps[i]? = some p) (hq : q.matchList = p.matchList) :
    (ps.set i q).map (·.matchList) = ps.map (·.matchList) := by
  rw [List.map_set, hq]
  apply List.ext_getElem?
  intro k
  rw [List.getElem?_set]
  split
  · next hk =>
    subst hk
    rw [List.getElem?_map, h, List.length_map, if_pos (List.getElem?_eq_some_iff.1 h).1]
    rfl
  · rfl

theorem performAt_alike {fl : K → K} {s t : MState K} (h : Alike fl s t) (i site : Nat) :
    (performAt s i site).map MState.bare = (InDouble.performAt fl t i site).map MState.bare ∧
    ∀ s' t', performAt s i site = .ok s' → InDouble.performAt fl t i site = .ok t' → Alike fl s' t' := by
  have main : (performAt s i site).map MState.bare = (InDouble.performAt fl t i site).map MState.bare := by
    unfold performAt InDouble.performAt
    refine bind_agree (rd_agree h.procs i) fun p q hpq => ?_
    have h1 : p.number = q.number := (congrArg Proc.number hpq :)
    have h2 : p.matchList.map PEntry.bare = q.matchList.map PEntry.bare := (congrArg Proc.matchList hpq :)
    have h3 : p.idMoves = q.idMoves := (congrArg Proc.idMoves hpq :)
    have h4 : p.affected = q.affected := (congrArg Proc.affected hpq :)
    refine bind_agree (f := Config.bareSt) (f' := Config.bareSt) ?_ fun r r' hr => ?_
    · rw [← Config.perform_bare, ← Config.perform_bare' fl, h.cfg, h1, h2, h3, h4]
    · have hr1 : r.1.bare = r'.1.bare := (congrArg Prod.fst hr :)
      have hr2 : r.2 = r'.2 := (congrArg Prod.snd hr :)
      refine bind_agree (wr_agree (f := Proc.bare) h.procs i ?_) fun ps qs hps => ?_
      · rw [hr2]
        exact congrArg (fun x : Proc K => { x with affected := r'.2 }) hpq
      · show Except.ok _ = Except.ok _
        unfold MState.bare
        simp only [hps, hr1, h.inverse, h.rates]
  refine ⟨main, fun s' t' hs ht => ?_⟩
  refine h.of_kept ?_ ?_ ?_ ?_ ?_
  · rw [hs, ht] at main
    exact Except.ok.inj main
  all_goals
    first
    | (unfold performAt at hs
       rw [bind_ok] at hs
       obtain ⟨p, h1, hs⟩ := hs
       rw [bind_ok] at hs
       obtain ⟨r, h2, hs⟩ := hs
       rw [bind_ok] at hs
       obtain ⟨ps, h3, hs⟩ := hs
       cases hs
       first
       | (unfold Config.places
          rw [Config.perform_lists h2])
       | (obtain ⟨-, rfl⟩ := wr_ok.1 h3
          rw [rd_ok] at h1
          exact set_patterns h1 rfl))
    | (unfold InDouble.performAt at ht
       rw [bind_ok] at ht
       obtain ⟨p, h1, ht⟩ := ht
       rw [bind_ok] at ht
       obtain ⟨r, h2, ht⟩ := ht
       rw [bind_ok] at ht
       obtain ⟨ps, h3, ht⟩ := ht
       cases ht
       first
       | (unfold Config.places
          rw [Config.perform_lists' fl h2])
       | (obtain ⟨-, rfl⟩ := wr_ok.1 h3
          rw [rd_ok] at h1
          exact set_patterns h1 rfl))

theorem updateRateTable_bare (fl : K → K) (p : Proc K) :
    Rounded.updateRateTable fl p.bare = (Rounded.updateRateTable fl p).map Proc.bare := by
  unfold Rounded.updateRateTable
  by_cases hc : p.custom = true
  · rw [if_pos hc, if_pos (show p.bare.custom = true from hc), bind_map]
    rfl
  · rw [if_neg hc, if_neg (show ¬ p.bare.custom = true from hc)]
    rfl

theorem updateRateTable_pattern {fl : K → K} {p p' : Proc K} (h : Rounded.updateRateTable fl p = .ok p') :
    p'.matchList = p.matchList := by
  unfold Rounded.updateRateTable at h
  split at h
  · rw [bind_ok] at h
    obtain ⟨t, -, h⟩ := h
    cases h
    rfl
  · cases h
    rfl

/-- What a selection gives, without coordinates. -/
def bareChoice (e : Nat × Nat × List (Proc K)) : Nat × Nat × List (Proc K) := (e.1, e.2.1, e.2.2.map Proc.bare)

theorem select_bare (fl : K → K) {ps qs : List (Proc K)} (h : ps.map Proc.bare = qs.map Proc.bare)
    (table : List (K × Nat)) (u1 u2 : K) :
    (Rounded.select fl ps table u1 u2).map bareChoice = (Rounded.select fl qs table u1 u2).map bareChoice := by
  unfold Rounded.select
  refine bind_agree (f := fun pk : Nat × Proc K × List (Proc K) => (pk.1, pk.2.1.bare, pk.2.2.map Proc.bare))
    (f' := fun pk => (pk.1, pk.2.1.bare, pk.2.2.map Proc.bare)) ?_ ?_
  · unfold Rounded.pickProcess
    rw [bind_map, bind_map]
    congr 1
    funext i
    refine bind_agree (rd_agree h i) fun p q hpq => ?_
    refine bind_agree (f := Proc.bare) (f' := Proc.bare) ?_ fun p' q' hpq' => ?_
    · rw [← updateRateTable_bare, ← updateRateTable_bare, hpq]
    refine bind_agree (wr_agree h i hpq') fun ps' qs' hps' => ?_
    show Except.ok (i, p'.bare, ps'.map Proc.bare) = Except.ok (i, q'.bare, qs'.map Proc.bare)
    rw [hpq', hps']
  · intro a b hab
    simp only [Prod.mk.injEq] at hab
    obtain ⟨h1, h2, h3⟩ := hab
    have e : Rounded.pickSite fl a.2.1 u2 = Rounded.pickSite fl b.2.1 u2 := by
      have k : ∀ p : Proc K, Rounded.pickSite fl p u2 = Rounded.pickSite fl p.bare u2 := fun p => rfl
      rw [k, h2, ← k]
    rw [e, bind_map, bind_map]
    congr 1
    funext site
    show Except.ok _ = Except.ok _
    unfold bareChoice
    rw [h1, h3]

theorem select_patterns {fl : K → K} {ps : List (Proc K)} {table : List (K × Nat)} {u1 u2 : K} {e : Nat × Nat × List (Proc K)}
    (h : Rounded.select fl ps table u1 u2 = .ok e) : e.2.2.map (·.matchList) = ps.map (·.matchList) := by
  unfold Rounded.select at h
  rw [bind_ok] at h
  obtain ⟨pk, h1, h⟩ := h
  rw [bind_ok] at h
  obtain ⟨site, -, h⟩ := h
  cases h
  unfold Rounded.pickProcess at h1
  rw [bind_ok] at h1
  obtain ⟨i, -, h1⟩ := h1
  rw [bind_ok] at h1
  obtain ⟨p, hp, h1⟩ := h1
  rw [bind_ok] at h1
  obtain ⟨p', hp', h1⟩ := h1
  rw [bind_ok] at h1
  obtain ⟨ps', hps, h1⟩ := h1
  cases h1
  rw [rd_ok] at hp
  obtain ⟨-, rfl⟩ := wr_ok.1 hps
  exact set_patterns hp (updateRateTable_pattern hp')

theorem maxRange_bare (procs : List (Proc K)) : Interactions.maxRange (procs.map Proc.bare) = Interactions.maxRange procs := by
  unfold Interactions.maxRange
  rw [List.foldl_map]
  rfl

theorem probabilityTable_bare (fl : K → K) (procs : List (Proc K)) :
    Rounded.probabilityTable fl (procs.map Proc.bare) = Rounded.probabilityTable fl procs := by
  have : ∀ x : K, Rounded.probabilityLoop fl x (procs.map Proc.bare) = Rounded.probabilityLoop fl x procs := by
    induction procs with
    | nil => intro x; rfl
    | cons p ps ih =>
      intro x
      rw [List.map_cons]
      unfold Rounded.probabilityLoop
      rw [ih]
      rfl
  exact this 0

/-- The runs with exact and with rounded coordinates agree: same tables, times, and alike states. -/
structure AlikeSim (fl : K → K) (s t : Sim K) : Prop where
  ms : Alike fl s.ms t.ms
  table : s.table = t.table
  time : s.time = t.time

theorem AlikeSim.bare {fl : K → K} {s t : Sim K} (h : AlikeSim fl s t) : s.bare = t.bare := by
  unfold Sim.bare
  rw [h.ms.bare, h.table, h.time]

/-- Both computations fail in the same way or give related results. -/
def Both {α β : Type} (R : α → β → Prop) (x : M α) (y : M β) : Prop :=
  (∃ e, x = .error e ∧ y = .error e) ∨ ∃ a b, x = .ok a ∧ y = .ok b ∧ R a b

theorem Both.bind {α β γ δ : Type} {R : α → β → Prop} {S : γ → δ → Prop} {x : M α} {y : M β} {f : α → M γ} {g : β → M δ}
    (h : Both R x y) (hf : ∀ a b, R a b → Both S (f a) (g b)) : Both S (x >>= f) (y >>= g) := by
  rcases h with ⟨e, rfl, rfl⟩ | ⟨a, b, rfl, rfl, hab⟩
  · exact .inl ⟨e, rfl, rfl⟩
  · exact hf a b hab

theorem both_of_agree {α β γ : Type} {x : M α} {y : M β} {f : α → γ} {g : β → γ} {R : α → β → Prop} (h : x.map f = y.map g)
    (hR : ∀ a b, x = .ok a → y = .ok b → f a = g b → R a b) : Both R x y := by
  cases x with
  | error e =>
    cases y with
    | error e' => cases h; exact .inl ⟨e, rfl, rfl⟩
    | ok b => cases h
  | ok a =>
    cases y with
    | error e' => cases h
    | ok b => exact .inr ⟨a, b, rfl, rfl, hR a b rfl rfl (Except.ok.inj h)⟩

theorem Both.loop {σ τ α : Type} {R : σ → τ → Prop} {f : σ → α → M σ} {g : τ → α → M τ}
    (h : ∀ s t x, R s t → Both R (f s x) (g t x)) : ∀ (xs : List α) (s : σ) (t : τ), R s t →
      Both R (loopM f xs s) (loopM g xs t)
  | [], s, t, hst => .inr ⟨s, t, rfl, rfl, hst⟩
  | x :: xs, s, t, hst => by
    rw [loopM_cons, loopM_cons]
    exact (h s t x hst).bind fun a b hab => Both.loop h xs a b hab

theorem Both.mono {α β : Type} {R S : α → β → Prop} {x : M α} {y : M β} (h : Both R x y) (hRS : ∀ a b, R a b → S a b) :
    Both S x y := by
  rcases h with h | ⟨a, b, h1, h2, h3⟩
  · exact .inl h
  · exact .inr ⟨a, b, h1, h2, hRS a b h3⟩

section
variable {fl : K → K} {env env' : Env K} {negLog : K → Option K}
  (hc : env.useCustomRates = false) (hc' : env'.useCustomRates = false) (hL : env'.L = env.L) (hR : env'.nRanks = env.nRanks)
include hc hc' hL hR

theorem matching_both {s t : MState K} (h : Alike fl s t) (is : List Nat) :
    Both (Alike fl) (Rounded.calculateMatching fl env s is) (InDouble.calculateMatching fl env' t is) := by
  obtain ⟨h1, h2⟩ := calculateMatching_alike hc hc' hL hR h is
  exact both_of_agree h1 fun a b ha hb _ => h2 a b ha hb

theorem rematch_both {s t : MState K} (h : Alike fl s t) (i : Nat) :
    Both (Alike fl) (Rounded.rematch fl env s i) (InDouble.rematch fl env' t i) := by
  unfold Rounded.rematch InDouble.rematch
  refine (both_of_agree (rd_agree h.procs i) (R := fun p q => p.bare = q.bare) fun a b _ _ hab => hab).bind fun p q hpq => ?_
  have h4 : p.affected = q.affected := (congrArg Proc.affected hpq :)
  rw [h4, hL, ← maxRange_bare s.procs, h.procs, maxRange_bare]
  exact matching_both hc hc' hL hR h _

theorem step_both {s t : Sim K} (h : AlikeSim fl s t) (d : Draws K) :
    Both (AlikeSim fl) (Rounded.step fl env negLog s d) (InDouble.step fl env' negLog t d) := by
  unfold Rounded.step InDouble.step
  have e : Both (AlikeSim fl) (Rounded.propagateTime fl negLog s d.time) (Rounded.propagateTime fl negLog t d.time) := by
    unfold Rounded.propagateTime
    rw [h.table]
    refine Both.bind (R := Eq) (both_of_agree (f := id) (g := id) rfl fun a b _ _ hab => hab) fun r r' hr => ?_
    subst hr
    refine Both.bind (R := Eq) (both_of_agree (f := id) (g := id) rfl fun a b _ _ hab => hab) fun r r' hr => ?_
    subst hr
    refine .inr ⟨_, _, rfl, rfl, ⟨h.ms, rfl, ?_⟩⟩
    rw [h.time]
  refine e.bind fun s t h => ?_
  unfold Rounded.singleStep InDouble.singleStep
  rw [h.table]
  refine Both.bind (R := fun e e' => bareChoice e = bareChoice e' ∧ e.2.2.map (·.matchList) = s.ms.procs.map (·.matchList) ∧
    e'.2.2.map (·.matchList) = t.ms.procs.map (·.matchList))
    (both_of_agree (select_bare fl h.ms.procs t.table d.process d.site)
      fun a b ha hb hab => ⟨hab, select_patterns ha, select_patterns hb⟩) ?_
  rintro e e' ⟨h1, h2, h3⟩
  have k1 : e.1 = e'.1 := (congrArg Prod.fst h1 :)
  have k2 : e.2.1 = e'.2.1 := (congrArg (fun x => x.2.1) h1 :)
  have k3 : e.2.2.map Proc.bare = e'.2.2.map Proc.bare := (congrArg (fun x => x.2.2) h1 :)
  have hal : Alike fl { s.ms with procs := e.2.2 } { t.ms with procs := e'.2.2 } := by
    refine h.ms.of_kept ?_ rfl rfl h2 h3
    unfold MState.bare
    simp only [k3, h.ms.cfg, h.ms.inverse, h.ms.rates]
  rw [k1, k2]
  obtain ⟨p1, p2⟩ := performAt_alike hal e'.1 e'.2.1
  refine Both.bind (both_of_agree p1 (R := Alike fl) fun a b ha hb _ => p2 a b ha hb) fun m m' hm => ?_
  refine (rematch_both hc hc' hL hR hm e'.1).bind fun m m' hm => ?_
  refine .inr ⟨_, _, rfl, rfl, ⟨hm, ?_, h.time⟩⟩
  dsimp only
  rw [← probabilityTable_bare, hm.procs, probabilityTable_bare]

theorem run_both {s t : Sim K} (h : AlikeSim fl s t) (ds : List (Draws K)) :
    Both (AlikeSim fl) (Rounded.run fl env negLog ds s) (InDouble.run fl env' negLog ds t) :=
  Both.loop (fun _ _ d h => step_both hc hc' hL hR h d) ds s t h

end
end KMC
