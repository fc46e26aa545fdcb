import Verif.Spec.Recoded
import Verif.Lemmas.AlikeInit
import Verif.Lemmas.Init
import Verif.Lemmas.Mpi
import Verif.Lemmas.Worn

/-!
# Models with other numbers for the types do the same
-/

set_option linter.unusedSectionVars false

namespace KMC

/-! ### Two computations that both end properly -/

/-- The results are related when both end properly. -/
def Then {α β : Type _} (R : α → β → Prop) (x : M α) (y : M β) : Prop := ∀ a b, x = .ok a → y = .ok b → R a b

section
variable {α β γ δ : Type _}

theorem Then.ok {R : α → β → Prop} {a : α} {b : β} (h : R a b) : Then R (.ok a) (.ok b) := by
  intro a' b' ha hb
  cases ha
  cases hb
  exact h

theorem Then.bind {R : α → β → Prop} {S : γ → δ → Prop} {x : M α} {y : M β} {f : α → M γ} {g : β → M δ} (h : Then R x y)
    (hf : ∀ a b, R a b → Then S (f a) (g b)) : Then S (x >>= f) (y >>= g) := by
  intro c d hc hd
  obtain ⟨a, ha, hc⟩ := bind_ok.1 hc
  obtain ⟨b, hb, hd⟩ := bind_ok.1 hd
  exact hf a b (h a b ha hb) c d hc hd

theorem Then.refl {x : M α} : Then Eq x x := by
  intro a b ha hb
  rw [ha] at hb
  exact Except.ok.inj hb

theorem Then.error_left {R : α → β → Prop} {e : Fault} {y : M β} : Then R (.error e) y := by
  intro a b ha
  cases ha

theorem Then.error_right {R : α → β → Prop} {e : Fault} {x : M α} : Then R x (.error e) := by
  intro a b _ hb
  cases hb

theorem Then.mono {R S : α → β → Prop} {x : M α} {y : M β} (h : Then R x y) (hRS : ∀ a b, R a b → S a b) : Then S x y :=
  fun a b ha hb => hRS a b (h a b ha hb)

end

section
variable {α β γ δ : Type}

theorem Then.rd {R : α → β → Prop} {xs : List α} {ys : List β} (h : List.Forall₂ R xs ys) (i : Nat) :
    Then R (KMC.rd xs i) (KMC.rd ys i) := fun _ _ ha hb => forall₂_get h i (rd_ok.1 ha) (rd_ok.1 hb)

theorem forall₂_set_related {R : α → β → Prop} {xs : List α} {ys : List β} (h : List.Forall₂ R xs ys) {a : α} {b : β} (hab : R a b)
    (i : Nat) : List.Forall₂ R (xs.set i a) (ys.set i b) := by
  induction h generalizing i with
  | nil => exact .nil
  | cons h1 h2 ih =>
    cases i with
    | zero => exact .cons hab h2
    | succ i => exact .cons h1 (ih i)

theorem Then.wr {R : α → β → Prop} {xs : List α} {ys : List β} (h : List.Forall₂ R xs ys) {a : α} {b : β} (hab : R a b)
    (i : Nat) : Then (List.Forall₂ R) (KMC.wr xs i a) (KMC.wr ys i b) := by
  intro c d hc hd
  obtain ⟨-, rfl⟩ := wr_ok.1 hc
  obtain ⟨-, rfl⟩ := wr_ok.1 hd
  exact forall₂_set_related h hab i

theorem Then.loop {σ τ : Type} {Q : α → β → Prop} {R : σ → τ → Prop} {f : σ → α → M σ} {g : τ → β → M τ}
    (hf : ∀ s t x y, R s t → Q x y → Then R (f s x) (g t y)) : ∀ {xs : List α} {ys : List β}, List.Forall₂ Q xs ys →
    ∀ {s : σ} {t : τ}, R s t → Then R (loopM f xs s) (loopM g ys t) := by
  intro xs ys h
  induction h with
  | nil => intro s t hst; exact Then.ok hst
  | cons h1 _ ih =>
    intro s t hst
    rw [loopM_cons, loopM_cons]
    exact Then.bind (hf s t _ _ hst h1) fun a b hab => ih hab

theorem Then.mapMM {Q : α → β → Prop} {S : γ → δ → Prop} {f : α → M γ} {g : β → M δ}
    (hf : ∀ x y, Q x y → Then S (f x) (g y)) : ∀ {xs : List α} {ys : List β}, List.Forall₂ Q xs ys →
    Then (List.Forall₂ S) (KMC.mapMM f xs) (KMC.mapMM g ys) := by
  intro xs ys h
  induction h with
  | nil => exact Then.ok .nil
  | cons h1 _ ih =>
    rw [mapMM_cons, mapMM_cons]
    exact Then.bind (hf _ _ h1) fun a b hab => Then.bind ih fun as bs h => Then.ok (.cons hab h)

theorem forall₂_eq {l : List α} : List.Forall₂ Eq l l := List.forall₂_refl l

end

/-! ### Buckets -/

variable {nT nT' : Nat} {σ : Nat → Nat}

theorem Bucket.Recoded.first {b b' : Bucket} (h : Bucket.Recoded nT nT' σ b b') (hR : Recoding nT nT' σ) (h0 : 0 < nT) :
    b'[0]? = b[0]? := by
  have := h.same 0 h0
  rwa [hR.wild] at this

theorem Bucket.Recoded.rd0 {b b' : Bucket} (h : Bucket.Recoded nT nT' σ b b') (hR : Recoding nT nT' σ) (h0 : 0 < nT) :
    rd b' 0 = rd b 0 := by
  unfold rd
  rw [h.first hR h0]

theorem Bucket.Recoded.cases {b b' : Bucket} (h : Bucket.Recoded nT nT' σ b b') {k : Nat} {v : Int} (hk : b'[k]? = some v) :
    (∃ i < nT, σ i = k ∧ b[i]? = some v) ∨ ((∀ i < nT, σ i ≠ k) ∧ v = 0) := by
  have hlt : k < nT' := by rw [← h.length']; exact (List.getElem?_eq_some_iff.1 hk).1
  by_cases hi : ∃ i < nT, σ i = k
  · obtain ⟨i, hi, rfl⟩ := hi
    exact .inl ⟨i, hi, rfl, by rw [← h.same i hi]; exact hk⟩
  · have hi : ∀ i < nT, σ i ≠ k := fun i hi' e => hi ⟨i, hi', e⟩
    refine .inr ⟨hi, ?_⟩
    have := h.other k hlt hi
    rw [hk] at this
    exact Option.some.inj this

theorem Bucket.Recoded.matchLoop {a a' b b' : Bucket} (h : Bucket.Recoded nT nT' σ a a') (g : Bucket.Recoded nT nT' σ b b')
    (hR : Recoding nT nT' σ) : Bucket.matchLoop a b = Bucket.matchLoop a' b' := by
  rw [Bool.eq_iff_iff, Bucket.matchLoop_iff, Bucket.matchLoop_iff]
  constructor
  · intro hm k x y hx hy
    rcases h.cases hx with ⟨i, hi, rfl, gx⟩ | ⟨hi, rfl⟩
    · rw [g.same i hi] at hy
      exact hm i x y gx hy
    · rcases g.cases hy with ⟨j, hj, hjk, -⟩ | ⟨-, rfl⟩
      · exact absurd hjk (hi j hj)
      · exact le_refl _
  · intro hm i x y hx hy
    have hi : i < nT := by rw [← h.length]; exact (List.getElem?_eq_some_iff.1 hx).1
    exact hm (σ i) x y (by rw [h.same i hi]; exact hx) (by rw [g.same i hi]; exact hy)

theorem Bucket.Recoded.matches? {a a' b b' : Bucket} (h : Bucket.Recoded nT nT' σ a a') (g : Bucket.Recoded nT nT' σ b b')
    (hR : Recoding nT nT' σ) : Bucket.matches? a b = Bucket.matches? a' b' := by
  unfold Bucket.matches?
  rw [h.length, g.length, h.length', g.length', h.matchLoop g hR]
  simp

theorem Bucket.Recoded.absSum {a a' : Bucket} (h : Bucket.Recoded nT nT' σ a a') :
    0 < Config.absSum a ↔ 0 < Config.absSum a' := by
  rw [Config.absSum_pos_iff, Config.absSum_pos_iff]
  constructor
  · rintro ⟨v, hv, h0⟩
    obtain ⟨i, hi⟩ := List.mem_iff_getElem?.1 hv
    have hlt : i < nT := by rw [← h.length]; exact (List.getElem?_eq_some_iff.1 hi).1
    exact ⟨v, List.mem_iff_getElem?.2 ⟨σ i, by rw [h.same i hlt]; exact hi⟩, h0⟩
  · rintro ⟨v, hv, h0⟩
    obtain ⟨k, hk⟩ := List.mem_iff_getElem?.1 hv
    rcases h.cases hk with ⟨i, -, -, hi⟩ | ⟨-, rfl⟩
    · exact ⟨v, List.mem_iff_getElem?.2 ⟨i, hi⟩, h0⟩
    · exact absurd rfl h0

theorem Bucket.Recoded.zip (f : Int → Int → Int) (h0 : f 0 0 = 0) {a a' b b' : Bucket} (h : Bucket.Recoded nT nT' σ a a')
    (g : Bucket.Recoded nT nT' σ b b') : Bucket.Recoded nT nT' σ (List.zipWith f a b) (List.zipWith f a' b') where
  length := by rw [List.length_zipWith, h.length, g.length, min_self]
  length' := by rw [List.length_zipWith, h.length', g.length', min_self]
  same := by
    intro i hi
    rw [List.getElem?_zipWith, List.getElem?_zipWith, h.same i hi, g.same i hi]
  other := by
    intro k hk hi
    rw [List.getElem?_zipWith, h.other k hk hi, g.other k hk hi]
    exact congrArg some h0

theorem Bucket.Recoded.addUpdate {a a' b b' : Bucket} (h : Bucket.Recoded nT nT' σ a a') (g : Bucket.Recoded nT nT' σ b b') :
    Then (Bucket.Recoded nT nT' σ) (Config.addUpdate a b) (Config.addUpdate a' b') := by
  rw [Config.addUpdate_ok a b (h.length.trans g.length.symm), Config.addUpdate_ok a' b' (h.length'.trans g.length'.symm)]
  exact Then.ok (h.zip (· + ·) rfl g)

theorem Bucket.Recoded.zeros (hR : Recoding nT nT' σ) : Bucket.Recoded nT nT' σ (Bucket.zeros nT) (Bucket.zeros nT') where
  length := by simp [Bucket.zeros]
  length' := by simp [Bucket.zeros]
  same := by
    intro i hi
    simp [Bucket.zeros, hi, hR.lt i hi]
  other := by
    intro k hk _
    simp [Bucket.zeros, hk]

theorem Bucket.Recoded.set (hR : Recoding nT nT' σ) {b b' : Bucket} (h : Bucket.Recoded nT nT' σ b b') {i : Nat} (hi : i < nT)
    (v : Int) : Bucket.Recoded nT nT' σ (b.set i v) (b'.set (σ i) v) where
  length := by rw [List.length_set, h.length]
  length' := by rw [List.length_set, h.length']
  same := by
    intro j hj
    by_cases e : i = j
    · subst e
      rw [List.getElem?_set, List.getElem?_set]
      simp [h.length, h.length', hi, hR.lt i hi]
    · rw [List.getElem?_set, List.getElem?_set, if_neg e, if_neg fun e' => e (hR.inj i hi j hj e'), h.same j hj]
  other := by
    intro k hk hno
    rw [List.getElem?_set, if_neg (hno i hi), h.other k hk hno]

/-! ### Matching -/

variable {K : Type} [Field K] [LinearOrder K]

theorem samePoint_recoded {p p' : PEntry K} {c c' : CEntry K} (h : p.Recoded nT nT' σ p') (g : c.Recoded nT nT' σ c') :
    samePoint p c = samePoint p' c' := by
  unfold samePoint
  rw [h.distance, h.coord, g.distance, g.coord]

theorem PEntry.Recoded.matches? (hR : Recoding nT nT' σ) (h0 : 0 < nT) {p p' : PEntry K} {c c' : CEntry K}
    (h : p.Recoded nT nT' σ p') (g : c.Recoded nT nT' σ c') : p.matches? c = p'.matches? c' := by
  unfold PEntry.matches?
  rw [h.types.rd0 hR h0, h.types.matches? g.types hR, samePoint_recoded h g]

theorem matchPrefix_recoded (hR : Recoding nT nT' σ) (h0 : 0 < nT) {ps ps' : List (PEntry K)}
    (h : List.Forall₂ (PEntry.Recoded nT nT' σ) ps ps') : ∀ {cs cs' : List (CEntry K)},
    List.Forall₂ (CEntry.Recoded nT nT' σ) cs cs' → matchPrefix ps cs = matchPrefix ps' cs' := by
  induction h with
  | nil => intro cs cs' _; unfold matchPrefix; rfl
  | cons h1 _ ih =>
    intro cs cs' hc
    cases hc with
    | nil => rfl
    | cons g1 g2 =>
      unfold matchPrefix
      rw [h1.matches? hR h0 g1, ih g2]

theorem whateverMatch_recoded (hR : Recoding nT nT' σ) (h0 : 0 < nT) {ps ps' : List (PEntry K)} {cs cs' : List (CEntry K)}
    (h : List.Forall₂ (PEntry.Recoded nT nT' σ) ps ps') (g : List.Forall₂ (CEntry.Recoded nT nT' σ) cs cs') :
    whateverMatch ps cs = whateverMatch ps' cs' := by
  unfold whateverMatch
  rw [h.length_eq, g.length_eq, matchPrefix_recoded hR h0 h g]

namespace Matcher

variable {s s' : MState K}

theorem taskType_recoded (hR : Recoding nT nT' σ) (h0 : 0 < nT) (h : s.Recoded nT nT' σ s') (pair : Nat × Nat) :
    Then Eq (taskType s pair) (taskType s' pair) := by
  unfold taskType
  rw [h.inverse]
  refine Then.bind (Then.rd h.procs _) fun p p' hp => ?_
  refine Then.bind Then.refl fun row row' hrow => ?_
  subst hrow
  refine Then.bind Then.refl fun b b' hb => ?_
  subst hb
  refine Then.bind (Then.rd h.cfg.lists _) fun l l' hl => ?_
  rw [whateverMatch_recoded hR h0 hp.entries hl]
  exact Then.refl

/-- A task without its multiplicity, which is not used. -/
def blind (t : RateTask K) : RateTask K := { t with multiplicity := 0 }

/-- Tasks that are the same up to multiplicities. -/
structure SameTasks (t t' : Tasks K) : Prop where
  remove : t.remove = t'.remove
  update : List.Forall₂ (fun a b => blind a = blind b) t.update t'.update
  add : List.Forall₂ (fun a b => blind a = blind b) t.add t'.add

theorem Proc.Recoded.field {α : Type} {p p' : Proc K} (h : p.Recoded nT nT' σ p') (f : Proc K → α)
    (hf : ∀ q : Proc K, f q.unlisted = f q) : f p = f p' := by
  rw [← hf p, ← hf p', h.rest]

theorem rateTask_recoded (h : s.Recoded nT nT' σ s') (pair : Nat × Nat) :
    Then (fun a b => blind a = blind b) (rateTask s pair) (rateTask s' pair) := by
  unfold rateTask
  refine Then.bind (Then.rd h.procs _) fun p p' hp => ?_
  refine Then.bind (Then.rd h.cfg.lists _) fun l l' _ => ?_
  refine Then.bind (R := fun _ _ => True) (fun _ _ _ _ => trivial) fun m m' _ => ?_
  refine Then.ok ?_
  unfold blind
  rw [Proc.Recoded.field hp (·.rate) fun _ => rfl]

theorem sortTasks_recoded (h : s.Recoded nT nT' σ s') : ∀ (pairs : List (Nat × Nat)) (ts : List Nat),
    Then SameTasks (sortTasks s pairs ts) (sortTasks s' pairs ts) := by
  intro pairs
  induction pairs with
  | nil => intro ts; exact Then.ok ⟨rfl, .nil, .nil⟩
  | cons pair pairs ih =>
    intro ts
    cases ts with
    | nil => exact Then.error_left
    | cons t ts =>
      unfold sortTasks
      by_cases h1 : t = 1
      · rw [if_pos h1, if_pos h1]
        refine Then.bind (ih ts) fun a b hab => Then.ok ⟨?_, hab.update, hab.add⟩
        show pair :: a.remove = pair :: b.remove
        rw [hab.remove]
      · rw [if_neg h1, if_neg h1]
        by_cases h2 : t = 2
        · rw [if_pos h2, if_pos h2]
          refine Then.bind (rateTask_recoded h pair) fun x y hxy => Then.bind (ih ts) fun a b hab => Then.ok ?_
          exact ⟨hab.remove, .cons hxy hab.update, hab.add⟩
        · rw [if_neg h2, if_neg h2]
          by_cases h3 : t = 3
          · rw [if_pos h3, if_pos h3]
            refine Then.bind (rateTask_recoded h pair) fun x y hxy => Then.bind (ih ts) fun a b hab => Then.ok ?_
            exact ⟨hab.remove, hab.update, .cons hxy hab.add⟩
          · rw [if_neg h3, if_neg h3]
            exact ih ts

theorem matchPairs_recoded (hR : Recoding nT nT' σ) (h0 : 0 < nT) {env : Env K} (hn : 0 < env.nRanks)
    (h : s.Recoded nT nT' σ s') (pairs : List (Nat × Nat)) : Then SameTasks (matchPairs env s pairs) (matchPairs env s' pairs) := by
  unfold matchPairs
  rw [Mpi.parMap_eq hn, Mpi.parMap_eq hn]
  refine Then.bind (R := List.Forall₂ Eq) (Then.mapMM (Q := Eq) ?_ forall₂_eq) fun a b hab => ?_
  · rintro x y rfl
    exact taskType_recoded hR h0 h x
  · rw [List.forall₂_eq_eq_eq] at hab
    subst hab
    exact sortTasks_recoded h pairs a

/-! ### The books -/

theorem removeSite_unlisted (p : Proc K) (i : Nat) : p.unlisted.removeSite i = (p.removeSite i).map Proc.unlisted := by
  unfold Proc.removeSite
  show (match p.sites.findIdx? (fun s => decide (s = i)) with | none => _ | some i => _) = _
  cases p.sites.findIdx? (fun s => decide (s = i)) with
  | none => rfl
  | some j =>
    show (if p.custom = true then _ else _) = _
    by_cases hc : p.custom = true
    · rw [if_pos hc]
      simp only [if_pos hc]
      rw [bind_map]
      congr 1
      funext a
      rw [bind_map]
      congr 1
      funext b
      rw [bind_map]
      rfl
    · rw [if_neg hc]
      simp only [if_neg hc]
      rw [bind_map]
      congr 1
      funext a
      rw [bind_map]
      rfl

theorem removeSite_matchList {p q : Proc K} {i : Nat} (h : p.removeSite i = .ok q) : q.matchList = p.matchList := by
  unfold Proc.removeSite at h
  split at h
  · cases h
  · split at h
    · obtain ⟨a, -, h⟩ := bind_ok.1 h
      obtain ⟨b, -, h⟩ := bind_ok.1 h
      obtain ⟨c, -, h⟩ := bind_ok.1 h
      rw [← Except.ok.inj h]
    · obtain ⟨a, -, h⟩ := bind_ok.1 h
      obtain ⟨b, -, h⟩ := bind_ok.1 h
      rw [← Except.ok.inj h]

/-- A function of processes that leaves the match list alone keeps the relation. -/
theorem recoded_of_unlisted {f : Proc K → M (Proc K)} (hf : ∀ p, f p.unlisted = (f p).map Proc.unlisted)
    (hm : ∀ p q, f p = .ok q → q.matchList = p.matchList) {p p' : Proc K} (h : p.Recoded nT nT' σ p') :
    Then (Proc.Recoded nT nT' σ) (f p) (f p') := by
  intro q q' hq hq'
  have e : (f p).map Proc.unlisted = (f p').map Proc.unlisted := by rw [← hf, ← hf, h.rest]
  rw [hq, hq'] at e
  refine ⟨Except.ok.inj e, ?_⟩
  rw [hm p q hq, hm p' q' hq']
  exact h.entries

theorem addSite_recoded {p p' : Proc K} (h : p.Recoded nT nT' σ p') (i : Nat) (r m : K) :
    (p.addSite i r m).Recoded nT nT' σ (p'.addSite i r m) := by
  refine recoded_of_unlisted (f := fun p => .ok (p.addSite i r m)) ?_ ?_ h _ _ rfl rfl
  · intro p
    show Except.ok _ = Except.ok _
    unfold Proc.addSite
    by_cases hc : p.custom = true
    · rw [if_pos hc, if_pos (show p.unlisted.custom = true from hc)]
      rfl
    · rw [if_neg hc, if_neg (show ¬ p.unlisted.custom = true from hc)]
      rfl
  · intro p q hq
    rw [← Except.ok.inj hq]
    unfold Proc.addSite
    split <;> rfl

theorem modifyProc_recoded {f f' : Proc K → M (Proc K)}
    (hf : ∀ p p', p.Recoded nT nT' σ p' → Then (Proc.Recoded nT nT' σ) (f p) (f' p')) {ps ps' : List (Proc K)}
    (h : List.Forall₂ (Proc.Recoded nT nT' σ) ps ps') (i : Nat) :
    Then (List.Forall₂ (Proc.Recoded nT nT' σ)) (modifyProc ps i f) (modifyProc ps' i f') := by
  unfold modifyProc
  exact Then.bind (Then.rd h i) fun p p' hp => Then.bind (hf p p' hp) fun q q' hq => Then.wr h hq i

/-- Books that differ by the numbers of the types. -/
def BookRecoded (nT nT' : Nat) (σ : Nat → Nat) (b b' : Book K) : Prop :=
  List.Forall₂ (Proc.Recoded nT nT' σ) b.1 b'.1 ∧ b.2 = b'.2

theorem removeSite_recoded {p p' : Proc K} (h : p.Recoded nT nT' σ p') (i : Nat) :
    Then (Proc.Recoded nT nT' σ) (p.removeSite i) (p'.removeSite i) :=
  recoded_of_unlisted (f := fun p => p.removeSite i) (fun p => removeSite_unlisted p i) (fun _ _ => removeSite_matchList) h

theorem updateProcesses_recoded {t t' : Tasks K} (ht : SameTasks t t') {b b' : Book K} (h : BookRecoded nT nT' σ b b') :
    Then (BookRecoded nT nT' σ) (updateProcesses t b) (updateProcesses t' b') := by
  unfold updateProcesses
  rw [ht.remove]
  refine Then.bind (Then.loop (Q := Eq) ?_ forall₂_eq h) fun b1 b1' h1 =>
    Then.bind (Then.loop ?_ ht.update h1) fun b2 b2' h2 => Then.loop ?_ ht.add h2
  · rintro b b' x _ hb rfl
    unfold removeTask
    rw [hb.2]
    refine Then.bind (modifyProc_recoded (fun p p' hp => removeSite_recoded hp _) hb.1 _) fun ps ps' hps => ?_
    refine Then.bind Then.refl fun i i' hi => Then.ok ⟨hps, hi⟩
  · intro b b' x y hb hxy
    obtain ⟨e1, e2, e3⟩ : x.index = y.index ∧ x.process = y.process ∧ x.rate = y.rate :=
      ⟨(congrArg RateTask.index hxy :), (congrArg RateTask.process hxy :), (congrArg RateTask.rate hxy :)⟩
    unfold updateTask
    rw [e1, e2, e3]
    refine Then.bind (modifyProc_recoded (fun p p' hp => removeSite_recoded hp _) hb.1 _) fun ps ps' hps => ?_
    refine Then.bind (modifyProc_recoded (fun p p' hp => Then.ok (addSite_recoded hp _ _ _)) hps _) fun qs qs' hqs => ?_
    exact Then.ok ⟨hqs, hb.2⟩
  · intro b b' x y hb hxy
    obtain ⟨e1, e2, e3⟩ : x.index = y.index ∧ x.process = y.process ∧ x.rate = y.rate :=
      ⟨(congrArg RateTask.index hxy :), (congrArg RateTask.process hxy :), (congrArg RateTask.rate hxy :)⟩
    unfold addTask
    rw [e1, e2, e3, hb.2]
    refine Then.bind (modifyProc_recoded (fun p p' hp => Then.ok (addSite_recoded hp _ _ _)) hb.1 _) fun ps ps' hps => ?_
    exact Then.bind Then.refl fun i i' hi => Then.ok ⟨hps, hi⟩

theorem updateMatchList_recoded {c c' : Config K} (h : c.Recoded nT nT' σ c') (i : Nat) :
    Then (Config.Recoded nT nT' σ) (c.updateMatchList i) (c'.updateMatchList i) := by
  unfold Config.updateMatchList
  refine Then.bind (Then.rd h.lists i) fun l l' hl => ?_
  refine Then.bind (Then.mapMM (S := CEntry.Recoded nT nT' σ) ?_ hl) fun m m' hm => ?_
  · intro e e' he
    rw [he.index]
    exact Then.bind (Then.rd h.types _) fun t t' ht => Then.ok ⟨rfl, he.distance, he.coord, ht⟩
  · exact Then.bind (Then.wr h.lists hm i) fun q q' hq => Then.ok { h with lists := hq }

theorem processesFor_recoded (L : LatticeMap) {ps ps' : List (Proc K)} (h : List.Forall₂ (Proc.Recoded nT nT' σ) ps ps') (i : Nat) :
    processesFor L ps i = processesFor L ps' i := by
  unfold processesFor
  generalize hk : (0 : Nat) = k
  clear hk
  induction h generalizing k with
  | nil => rfl
  | @cons p p' ps ps' h1 _ ih =>
    have e : p.basisSites = p'.basisSites := Proc.Recoded.field h1 (·.basisSites) fun _ => rfl
    rw [List.zipIdx_cons, List.zipIdx_cons, List.filter_cons, List.filter_cons]
    simp only [e]
    split
    · rw [List.map_cons, List.map_cons, ih]
    · exact ih _

theorem collectPairs_recoded (L : LatticeMap) {ps ps' : List (Proc K)} (h : List.Forall₂ (Proc.Recoded nT nT' σ) ps ps') :
    ∀ (is : List Nat) {c c' : Config K}, c.Recoded nT nT' σ c' →
    Then (fun a b => a.1 = b.1 ∧ a.2.Recoded nT nT' σ b.2) (collectPairs L ps is c) (collectPairs L ps' is c') := by
  intro is
  induction is with
  | nil => intro c c' hc; exact Then.ok ⟨rfl, hc⟩
  | cons i is ih =>
    intro c c' hc
    unfold collectPairs
    rw [processesFor_recoded L h i]
    dsimp only
    split
    · refine Then.bind (updateMatchList_recoded hc i) fun d d' hd => ?_
      exact Then.bind (ih hd) fun a b hab => Then.ok ⟨by rw [hab.1], hab.2⟩
    · refine Then.bind (Then.ok hc) fun d d' hd => ?_
      exact Then.bind (ih hd) fun a b hab => Then.ok ⟨by rw [hab.1], hab.2⟩

theorem calculateMatching_recoded (hR : Recoding nT nT' σ) (h0 : 0 < nT) {env : Env K} (hn : 0 < env.nRanks)
    (hc : env.useCustomRates = false) (h : s.Recoded nT nT' σ s') (is : List Nat) :
    Then (MState.Recoded nT nT' σ) (calculateMatching env s is) (calculateMatching env s' is) := by
  unfold calculateMatching
  rw [hc]
  refine Then.bind (collectPairs_recoded env.L h.procs is h.cfg) fun c c' hcc => ?_
  rw [hcc.1]
  have h1 : MState.Recoded nT nT' σ { s with cfg := c.2 } { s' with cfg := c'.2 } := ⟨hcc.2, h.procs, h.inverse⟩
  refine Then.bind (matchPairs_recoded hR h0 hn h1 _) fun t t' ht => ?_
  refine Then.bind (R := fun a b => SameTasks a.1 b.1) (Then.ok ht) fun r r' hr => ?_
  exact Then.bind (updateProcesses_recoded hr ⟨h.procs, h.inverse⟩) fun b b' hb => Then.ok ⟨hcc.2, hb.1, hb.2⟩

end Matcher

/-! ### Doing a process -/

namespace Config

variable {c c' : Config K}

theorem performEntry_recoded (hR : Recoding nT nT' σ) (h0 : 0 < nT) {st st' : Config K × List Nat}
    (h : st.1.Recoded nT nT' σ st'.1) (ha : st.2 = st'.2) {p p' : PEntry K} {e e' : CEntry K} (hp : p.Recoded nT nT' σ p')
    (he : e.Recoded nT nT' σ e') :
    Then (fun a b => a.1.Recoded nT nT' σ b.1 ∧ a.2 = b.2) (performEntry st p e) (performEntry st' p' e') := by
  unfold performEntry
  by_cases hpos : absSum p.updateTypes > 0
  · rw [if_pos hpos, if_pos (hp.updates.absSum.1 hpos), hp.updates.rd0 hR h0]
    refine Then.bind Then.refl fun u0 u0' hu => ?_
    subst hu
    by_cases hw : ¬ (u0 > 0)
    · rw [if_pos hw, if_pos hw, he.index, h.atomId, h.atomIdCoords, hp.moveCoord, h.nMoved, h.movedIds, h.moveVectors, ha]
      refine Then.bind Then.refl fun id id' hid => ?_
      subst hid
      refine Then.bind Then.refl fun ac ac' hac => ?_
      subst hac
      refine Then.bind Then.refl fun aic aic' haic => ?_
      refine Then.bind (Then.rd h.types _) fun t t' ht => ?_
      refine Then.bind (ht.addUpdate hp.updates) fun u u' hu => ?_
      refine Then.bind (Then.wr h.types hu _) fun ts ts' hts => ?_
      refine Then.bind (R := fun _ _ => True) (fun _ _ _ _ => trivial) fun els els' _ => ?_
      refine Then.bind (R := fun (a b : List (List String)) => a.length = b.length) ?_ fun x x' hx => ?_
      · intro a b hab hab'
        obtain ⟨-, rfl⟩ := wr_ok.1 hab
        obtain ⟨-, rfl⟩ := wr_ok.1 hab'
        rw [List.length_set, List.length_set, h.sites]
      rw [hp.hasMove]
      dsimp only
      split
      · refine Then.bind (R := fun _ _ => True) (fun _ _ _ _ => trivial) fun _ _ _ => ?_
        refine Then.bind (R := fun _ _ => True) (fun _ _ _ _ => trivial) fun ae ae' _ => ?_
        refine Then.bind Then.refl fun af af' haf => ?_
        refine Then.bind Then.refl fun mi mi' hmi => ?_
        refine Then.bind Then.refl fun mv mv' hmv => ?_
        exact Then.ok ⟨{ h with
          sites := hx, atomIdCoords := haic, movedIds := hmi, moveVectors := hmv, nMoved := rfl, types := hts, atomId := rfl }, haf⟩
      · refine Then.bind (R := fun _ _ => True) (fun _ _ _ _ => trivial) fun ae ae' _ => ?_
        refine Then.bind Then.refl fun af af' haf => ?_
        refine Then.bind Then.refl fun mi mi' hmi => ?_
        refine Then.bind Then.refl fun mv mv' hmv => ?_
        exact Then.ok ⟨{ h with
          sites := hx, atomIdCoords := haic, movedIds := hmi, moveVectors := hmv, nMoved := rfl, types := hts, atomId := rfl }, haf⟩
    · rw [if_neg hw, if_neg hw]
      exact Then.ok ⟨h, ha⟩
  · rw [if_neg hpos, if_neg fun hp' => hpos (hp.updates.absSum.2 hp')]
    exact Then.ok ⟨h, ha⟩

theorem performLoop_recoded (hR : Recoding nT nT' σ) (h0 : 0 < nT) {ps ps' : List (PEntry K)}
    (hp : List.Forall₂ (PEntry.Recoded nT nT' σ) ps ps') : ∀ {cs cs' : List (CEntry K)},
    List.Forall₂ (CEntry.Recoded nT nT' σ) cs cs' → ∀ {st st' : Config K × List Nat}, st.1.Recoded nT nT' σ st'.1 →
    st.2 = st'.2 → Then (fun a b => a.1.Recoded nT nT' σ b.1 ∧ a.2 = b.2) (performLoop ps cs st) (performLoop ps' cs' st') := by
  induction hp with
  | nil => intro cs cs' _ st st' h ha; unfold performLoop; exact Then.ok ⟨h, ha⟩
  | cons h1 _ ih =>
    intro cs cs' hc st st' h ha
    cases hc with
    | nil => exact Then.error_left
    | cons g1 g2 =>
      unfold performLoop
      exact Then.bind (performEntry_recoded hR h0 h ha h1 g1) fun a b hab => ih g2 hab.1 hab.2

theorem applyIdUpdate_recoded (h : c.Recoded nT nT' σ c') (u : Nat × Nat) :
    Then (Config.Recoded nT nT' σ) (applyIdUpdate c u) (applyIdUpdate c' u) := by
  unfold applyIdUpdate
  rw [h.atomId]
  refine Then.bind Then.refl fun a a' ha => ?_
  refine Then.bind (R := fun _ _ => True) (fun _ _ _ _ => trivial) fun _ _ _ => ?_
  refine Then.bind (R := fun _ _ => True) (fun _ _ _ _ => trivial) fun _ _ _ => ?_
  refine Then.bind (R := fun _ _ => True) (fun _ _ _ _ => trivial) fun _ _ _ => ?_
  exact Then.ok { h with atomId := ha }

theorem perform_recoded (hR : Recoding nT nT' σ) (h0 : 0 < nT) (h : c.Recoded nT nT' σ c') {ps ps' : List (PEntry K)}
    (hp : List.Forall₂ (PEntry.Recoded nT nT' σ) ps ps') (number : Nat) (idMoves : List (Nat × Nat)) (affected : List Nat)
    (site : Nat) : Then (fun a b => a.1.Recoded nT nT' σ b.1 ∧ a.2 = b.2) (c.perform number ps idMoves affected site)
      (c'.perform number ps' idMoves affected site) := by
  unfold perform
  refine Then.bind (Then.rd h.lists site) fun l l' hl => ?_
  refine Then.bind (performLoop_recoded hR h0 hp hl
    (show Config.Recoded nT nT' σ _ _ from { h with latestProcess := rfl, latestSite := rfl, nMoved := rfl }) rfl) fun st st' hst => ?_
  refine Then.bind (R := List.Forall₂ Eq) (Then.mapMM (Q := Eq) ?_ forall₂_eq) fun u u' hu => ?_
  · rintro x _ rfl
    unfold idUpdate
    refine Then.bind (Then.rd hl _) fun f f' hf => Then.bind (Then.rd hl _) fun t t' ht => ?_
    rw [hst.1.atomId, hf.index, ht.index]
    exact Then.refl
  · refine Then.bind (Then.loop (Q := Eq) ?_ hu hst.1) fun d d' hd => Then.ok ⟨hd, hst.2⟩
    rintro a b x _ hab rfl
    exact applyIdUpdate_recoded hab x

/-! ### Setting up -/

theorem configMatchList_recoded (dist : Coord K → K) (L : LatticeMap) (h : c.Recoded nT nT' σ c') (origin : Nat)
    (is : List Nat) : Then (List.Forall₂ (CEntry.Recoded nT nT' σ)) (configMatchList dist L c origin is)
      (configMatchList dist L c' origin is) := by
  unfold configMatchList
  rw [h.coords]
  refine Then.bind Then.refl fun center center' hcen => ?_
  subst hcen
  refine Then.bind (Then.mapMM (Q := Eq) (S := CEntry.Recoded nT nT' σ) ?_ forall₂_eq) fun l l' hl => ?_
  · rintro i _ rfl
    unfold cEntry
    rw [h.coords]
    refine Then.bind Then.refl fun ci ci' hci => ?_
    subst hci
    exact Then.bind (Then.rd h.types _) fun t t' ht => Then.ok ⟨rfl, rfl, rfl, ht⟩
  · refine Then.ok (forall₂_sort_alike hl ?_)
    intro a _ b _ a' b' ha hb
    unfold CEntry.lt
    rw [ha.distance, ha.coord, hb.distance, hb.coord]

theorem initMatchLists_recoded (dist : Coord K → K) (L : LatticeMap) (h : c.Recoded nT nT' σ c') (range : Nat) :
    Then (Config.Recoded nT nT' σ) (c.initMatchLists dist L range) (c'.initMatchLists dist L range) := by
  unfold initMatchLists
  rw [h.types.length_eq]
  refine Then.bind (Then.mapMM (Q := Eq) (S := List.Forall₂ (CEntry.Recoded nT nT' σ)) ?_ forall₂_eq) fun l l' hl => ?_
  · rintro i _ rfl
    exact configMatchList_recoded dist L h i _
  · have hz : List.Forall₂ (fun (a b : Nat × List (CEntry K)) => a.1 = b.1 ∧ List.Forall₂ (CEntry.Recoded nT nT' σ) a.2 b.2)
        ((List.range c'.types.length).zip l) ((List.range c'.types.length).zip l') := by
      generalize List.range c'.types.length = r
      induction hl generalizing r with
      | nil => rw [List.zip_nil_right]; exact .nil
      | cons h1 _ ih =>
        cases r with
        | nil => exact .nil
        | cons a r => exact .cons ⟨rfl, h1⟩ (ih r)
    refine Then.bind (Then.loop ?_ hz h.lists) fun m m' hm => ?_
    · rintro s t ⟨a, x⟩ ⟨b, y⟩ hst ⟨hab, hxy⟩
      cases hab
      exact Then.wr hst hxy _
    · have e : ∀ k : Nat, l.foldl (fun m l => if l.length > m then l.length else m) k =
          l'.foldl (fun m l => if l.length > m then l.length else m) k := by
        clear hz hm
        induction hl with
        | nil => intro _; rfl
        | cons h1 _ ih =>
          intro k
          rw [List.foldl_cons, List.foldl_cons, h1.length_eq]
          exact ih _
      refine Then.ok { h with movedIds := ?_, moveVectors := ?_, lists := hm }
      · show resize _ _ _ = resize _ _ _
        rw [e, h.movedIds]
      · show resize _ _ _ = resize _ _ _
        rw [e, h.moveVectors]

end Config

theorem initWildcard_recoded (hR : Recoding nT nT' σ) (h0 : 0 < nT) {c c' : CEntry K} (h : c.Recoded nT nT' σ c') :
    Then (PEntry.Recoded nT nT' σ) (initWildcard c) (initWildcard c') := by
  unfold initWildcard
  rw [h.types.length, h.types.length']
  refine Then.bind (R := Bucket.Recoded nT nT' σ) ?_ fun m m' hm => ?_
  · intro a b ha hb
    obtain ⟨-, rfl⟩ := wr_ok.1 ha
    obtain ⟨-, rfl⟩ := wr_ok.1 hb
    have := (Bucket.Recoded.zeros hR).set hR h0 1
    rwa [hR.wild] at this
  · exact Then.ok ⟨rfl, h.distance, h.coord, rfl, hm, Bucket.Recoded.zeros hR⟩

namespace Interactions

theorem maxRange_recoded {ps ps' : List (Proc K)} (h : List.Forall₂ (Proc.Recoded nT nT' σ) ps ps') : maxRange ps = maxRange ps' := by
  unfold maxRange
  generalize (1 : Nat) = k
  induction h generalizing k with
  | nil => rfl
  | cons h1 _ ih =>
    rw [List.foldl_cons, List.foldl_cons, Matcher.Proc.Recoded.field h1 (·.range) fun _ => rfl]
    exact ih _

theorem alignLoop_recoded (hR : Recoding nT nT' σ) (h0 : 0 < nT) {cs cs' : List (CEntry K)}
    (hc : List.Forall₂ (CEntry.Recoded nT nT' σ) cs cs') : ∀ {ps ps' : List (PEntry K)},
    List.Forall₂ (PEntry.Recoded nT nT' σ) ps ps' → ∀ (old new : Nat) (mapping : List Nat),
    Then (fun a b => List.Forall₂ (PEntry.Recoded nT nT' σ) a.1 b.1 ∧ a.2 = b.2) (alignLoop ps cs old new mapping)
      (alignLoop ps' cs' old new mapping) := by
  induction hc with
  | nil =>
    intro ps ps' hp old new mapping
    cases hp with
    | nil => unfold alignLoop; exact Then.ok ⟨.nil, rfl⟩
    | cons h1 h2 => unfold alignLoop; exact Then.ok ⟨.cons h1 h2, rfl⟩
  | cons g1 _ ih =>
    intro ps ps' hp old new mapping
    cases hp with
    | nil => unfold alignLoop; exact Then.ok ⟨.nil, rfl⟩
    | cons h1 h2 =>
      unfold alignLoop
      rw [samePoint_recoded h1 g1]
      split
      · refine Then.bind (initWildcard_recoded hR h0 g1) fun w w' hw => ?_
        exact Then.bind (ih (.cons h1 h2) _ _ _) fun a b hab => Then.ok ⟨.cons hw hab.1, hab.2⟩
      · refine Then.bind Then.refl fun m m' hm => ?_
        subst hm
        exact Then.bind (ih h2 _ _ _) fun a b hab => Then.ok ⟨.cons h1 hab.1, hab.2⟩

theorem updateMatchListOf_recoded (hR : Recoding nT nT' σ) (h0 : 0 < nT) {c c' : Config K} (h : c.Recoded nT nT' σ c')
    (L : LatticeMap) {p p' : Proc K} (hp : p.Recoded nT nT' σ p') :
    Then (Proc.Recoded nT nT' σ) (updateMatchListOf c L p) (updateMatchListOf c' L p') := by
  have e1 : p.basisSites = p'.basisSites := Matcher.Proc.Recoded.field hp (·.basisSites) fun _ => rfl
  have e2 : p.idMoves = p'.idMoves := Matcher.Proc.Recoded.field hp (·.idMoves) fun _ => rfl
  unfold updateMatchListOf
  rw [e1, e2]
  match p'.basisSites with
  | [] => exact Then.ok hp
  | _ :: _ :: _ => exact Then.ok hp
  | [b] =>
    refine Then.bind Then.refl fun i i' hi => ?_
    subst hi
    refine Then.bind (Then.rd h.lists i) fun l l' hl => ?_
    rw [hl.length_eq]
    refine Then.bind (alignLoop_recoded hR h0 hl hp.entries _ _ _) fun r r' hr => ?_
    simp only [hr.2]
    refine Then.bind Then.refl fun m m' hm => ?_
    subst hm
    refine Then.ok ⟨?_, hr.1⟩
    show ({ p.unlisted with idMoves := m, basisSites := [b] } : Proc K) = { p'.unlisted with idMoves := m, basisSites := [b] }
    rw [hp.rest]

theorem updateProcessMatchLists_recoded (hR : Recoding nT nT' σ) (h0 : 0 < nT) (w : Bool) {c c' : Config K}
    (h : c.Recoded nT nT' σ c') (L : LatticeMap) {ps ps' : List (Proc K)} (hp : List.Forall₂ (Proc.Recoded nT nT' σ) ps ps') :
    Then (List.Forall₂ (Proc.Recoded nT nT' σ)) (updateProcessMatchLists w c L ps) (updateProcessMatchLists w c' L ps') := by
  unfold updateProcessMatchLists
  split
  · exact Then.ok hp
  · exact Then.mapMM (fun p p' hpp => updateMatchListOf_recoded hR h0 h L hpp) hp

theorem probabilityTable_recoded {ps ps' : List (Proc K)} (h : List.Forall₂ (Proc.Recoded nT nT' σ) ps ps') :
    probabilityTable ps = probabilityTable ps' := by
  unfold probabilityTable
  generalize (0 : K) = k
  induction h generalizing k with
  | nil => rfl
  | @cons p p' ps ps' h1 _ ih =>
    have e1 : p.totalRate = p'.totalRate := Matcher.Proc.Recoded.field h1 (·.totalRate) fun _ => rfl
    have e2 : p.sites = p'.sites := Matcher.Proc.Recoded.field h1 (·.sites) fun _ => rfl
    unfold probabilityLoop
    rw [e1, e2, ih]

theorem clearMatching_recoded {ps ps' : List (Proc K)} (h : List.Forall₂ (Proc.Recoded nT nT' σ) ps ps') :
    List.Forall₂ (Proc.Recoded nT nT' σ) (clearMatching ps) (clearMatching ps') := by
  unfold clearMatching
  rw [List.forall₂_map_left_iff, List.forall₂_map_right_iff]
  refine h.imp fun p p' hp => ⟨?_, hp.entries⟩
  show p.unlisted.clearSites = p'.unlisted.clearSites
  rw [hp.rest]

end Interactions

/-! ### Runs -/

namespace LatticeModel

theorem init_recoded (hR : Recoding nT nT' σ) (h0 : 0 < nT) {env : Env K} (hn : 0 < env.nRanks)
    (hc : env.useCustomRates = false) {c c' : Config K} (h : c.Recoded nT nT' σ c') {ps ps' : List (Proc K)}
    (hp : List.Forall₂ (Proc.Recoded nT nT' σ) ps ps') : Then (Sim.Recoded nT nT' σ) (init env c ps) (init env c' ps') := by
  unfold init initialMatching
  rw [Interactions.maxRange_recoded hp, h.coords, hp.length_eq]
  refine Then.bind (R := MState.Recoded nT nT' σ) (Then.bind (Config.initMatchLists_recoded env.dist env.L h _) fun c1 c1' h1 => ?_)
    fun ms ms' hms => ?_
  · refine Then.bind (Interactions.updateProcessMatchLists_recoded hR h0 _ h1 env.L (Interactions.clearMatching_recoded hp))
      fun qs qs' hq => ?_
    rw [h1.sites]
    exact Matcher.calculateMatching_recoded hR h0 hn hc (s := ⟨c1, qs, _, _⟩) (s' := ⟨c1', qs', _, _⟩) ⟨h1, hq, rfl⟩ _
  · exact Then.ok ⟨hms, Interactions.probabilityTable_recoded hms.procs, rfl⟩

theorem updateRateTable_unlisted (p : Proc K) : p.unlisted.updateRateTable = p.updateRateTable.map Proc.unlisted := by
  unfold Proc.updateRateTable
  show (if p.custom = true then _ else _) = _
  by_cases hc : p.custom = true
  · rw [if_pos hc, if_pos hc, bind_map]
    rfl
  · rw [if_neg hc, if_neg hc]
    rfl

theorem updateRateTable_matchList {p q : Proc K} (h : p.updateRateTable = .ok q) : q.matchList = p.matchList := by
  unfold Proc.updateRateTable at h
  split at h
  · obtain ⟨t, -, h⟩ := bind_ok.1 h
    rw [← Except.ok.inj h]
  · rw [← Except.ok.inj h]

/-- The selection needs only what the processes have in common; it ends properly in both models or in none. -/
theorem select_recoded {ps ps' : List (Proc K)} (h : List.Forall₂ (Proc.Recoded nT nT' σ) ps ps') (table : List (K × Nat))
    (u1 u2 : K) {r : Nat × Nat × List (Proc K)} (hr : select ps table u1 u2 = .ok r) :
    ∃ r', select ps' table u1 u2 = .ok r' ∧ r.1 = r'.1 ∧ r.2.1 = r'.2.1 ∧
      List.Forall₂ (Proc.Recoded nT nT' σ) r.2.2 r'.2.2 := by
  unfold select Interactions.pickProcess at hr ⊢
  obtain ⟨pk, hpk, hr⟩ := bind_ok.1 hr
  obtain ⟨i, hi, hpk⟩ := bind_ok.1 hpk
  obtain ⟨p, hp, hpk⟩ := bind_ok.1 hpk
  obtain ⟨q, hq, hpk⟩ := bind_ok.1 hpk
  obtain ⟨qs, hqs, hpk⟩ := bind_ok.1 hpk
  cases hpk
  obtain ⟨site, hsite, hr⟩ := bind_ok.1 hr
  cases hr
  have hlt : i < ps'.length := by rw [← h.length_eq]; exact (List.getElem?_eq_some_iff.1 (rd_ok.1 hp)).1
  have hp' := rd_of_lt hlt
  have hpp := Then.rd h i _ _ hp hp'
  have e := updateRateTable_unlisted p
  rw [hpp.rest, updateRateTable_unlisted, hq] at e
  obtain ⟨q', hq'⟩ : ∃ q', (ps'[i]).updateRateTable = .ok q' := by
    cases hx : (ps'[i]).updateRateTable with
    | ok q' => exact ⟨q', rfl⟩
    | error _ => rw [hx] at e; cases e
  have hqq := Matcher.recoded_of_unlisted (f := Proc.updateRateTable) updateRateTable_unlisted
    (fun _ _ => updateRateTable_matchList) hpp q q' hq hq'
  obtain ⟨-, rfl⟩ := wr_ok.1 hqs
  have es : q.pickSite u2 = q'.pickSite u2 := Matcher.Proc.Recoded.field hqq (fun p => p.pickSite u2) fun _ => rfl
  refine ⟨(i, site, ps'.set i q'), ?_, rfl, rfl, forall₂_set_related h hqq i⟩
  simp only [hi, ok_bind, hp', hq', wr_of_lt hlt, pure_ok]
  rw [← es, hsite]
  rfl

theorem step_recoded (hR : Recoding nT nT' σ) (h0 : 0 < nT) {env : Env K} (hn : 0 < env.nRanks)
    (hc : env.useCustomRates = false) (negLog : K → Option K) {s s' : Sim K} (h : s.Recoded nT nT' σ s') (d : Draws K) :
    Then (Sim.Recoded nT nT' σ) (step env negLog s d) (step env negLog s' d) := by
  unfold step propagateTime
  rw [h.table, h.time]
  refine Then.bind (R := Sim.Recoded nT nT' σ) (Then.bind Then.refl fun r r' hr => ?_) fun s1 s1' h1 => ?_
  · subst hr
    refine Then.bind Then.refl fun dt dt' hdt => ?_
    subst hdt
    exact Then.ok ⟨h.ms, rfl, rfl⟩
  · unfold singleStep
    rw [h1.table]
    refine Then.bind (R := fun r r' => r.1 = r'.1 ∧ r.2.1 = r'.2.1 ∧ List.Forall₂ (Proc.Recoded nT nT' σ) r.2.2 r'.2.2) ?_
      fun e e' he => ?_
    · intro a b ha hb
      obtain ⟨b', hb', hab⟩ := select_recoded h1.ms.procs _ _ _ ha
      rw [hb] at hb'
      rw [Except.ok.inj hb']
      exact hab
    rw [he.1, he.2.1]
    refine Then.bind (R := MState.Recoded nT nT' σ) ?_ fun m m' hm => ?_
    · unfold performAt
      refine Then.bind (Then.rd he.2.2 _) fun p p' hp => ?_
      have e1 : p.number = p'.number := Matcher.Proc.Recoded.field hp (·.number) fun _ => rfl
      have e2 : p.idMoves = p'.idMoves := Matcher.Proc.Recoded.field hp (·.idMoves) fun _ => rfl
      have e3 : p.affected = p'.affected := Matcher.Proc.Recoded.field hp (·.affected) fun _ => rfl
      rw [e1, e2, e3]
      refine Then.bind (Config.perform_recoded hR h0 h1.ms.cfg hp.entries _ _ _ _) fun r r' hr => ?_
      have hq : Proc.Recoded nT nT' σ { p with affected := r.2 } { p' with affected := r'.2 } := by
        refine ⟨?_, hp.entries⟩
        show ({ p.unlisted with affected := r.2 } : Proc K) = { p'.unlisted with affected := r'.2 }
        rw [hp.rest, hr.2]
      rw [e1, e2] at hq
      exact Then.bind (Then.wr he.2.2 hq _) fun qs qs' hqs => Then.ok ⟨hr.1, hqs, h1.ms.inverse⟩
    · refine Then.bind (R := MState.Recoded nT nT' σ) ?_ fun m2 m2' hm2 => ?_
      · unfold rematch
        refine Then.bind (Then.rd hm.procs _) fun p p' hp => ?_
        rw [Matcher.Proc.Recoded.field hp (·.affected) fun _ => rfl, Interactions.maxRange_recoded hm.procs]
        exact Matcher.calculateMatching_recoded hR h0 hn hc hm _
      · exact Then.ok ⟨hm2, Interactions.probabilityTable_recoded hm2.procs, h1.time⟩

theorem run_recoded (hR : Recoding nT nT' σ) (h0 : 0 < nT) {env : Env K} (hn : 0 < env.nRanks)
    (hc : env.useCustomRates = false) (negLog : K → Option K) {s s' : Sim K} (h : s.Recoded nT nT' σ s') (ds : List (Draws K)) :
    Then (Sim.Recoded nT nT' σ) (run env negLog ds s) (run env negLog ds s') := by
  unfold run
  refine Then.loop (Q := Eq) ?_ forall₂_eq h
  rintro a b x _ hab rfl
  exact step_recoded hR h0 hn hc negLog hab x

end LatticeModel
end KMC
