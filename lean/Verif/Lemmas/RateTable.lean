import Verif.Model.RateTable
import Verif.Lemmas.Monad
import Mathlib.Data.List.Induction

/-! # Lemmas about the rate cache -/

namespace KMC

section
variable {κ α : Type _} [DecidableEq κ]

theorem mem_mapPut {k : κ} {v : α} {m : List (κ × α)} {e : κ × α} (h : e ∈ mapPut k v m) :
    e = (k, v) ∨ e ∈ m := by
  induction m with
  | nil => simpa [mapPut] using h
  | cons a m ih =>
    unfold mapPut at h
    split at h
    · rcases List.mem_cons.1 h with h | h
      · exact .inl h
      · exact .inr (List.mem_cons_of_mem _ h)
    · rcases List.mem_cons.1 h with h | h
      · exact .inr (h ▸ List.mem_cons_self)
      · rcases ih h with h | h
        · exact .inl h
        · exact .inr (List.mem_cons_of_mem _ h)

theorem mem_mapPut_self {k : κ} {v : α} {m : List (κ × α)} : (k, v) ∈ mapPut k v m := by
  induction m with
  | nil => simp [mapPut]
  | cons a m ih => unfold mapPut; split <;> simp [ih]

theorem mem_mapPut_of_ne {k : κ} {v : α} {m : List (κ × α)} {e : κ × α} (h : e ∈ m) (hk : e.1 ≠ k) :
    e ∈ mapPut k v m := by
  induction m with
  | nil => simp at h
  | cons a m ih =>
    unfold mapPut
    rcases List.mem_cons.1 h with rfl | h
    · rw [if_neg hk]; simp
    · split
      · exact List.mem_cons_of_mem _ h
      · exact List.mem_cons_of_mem _ (ih h)

theorem length_mapPut_le {k : κ} {v : α} {m : List (κ × α)} : (mapPut k v m).length ≤ m.length + 1 := by
  induction m with
  | nil => simp [mapPut]
  | cons a m ih => unfold mapPut; split <;> simp [ih]

theorem length_mapPut_pos {k : κ} {v : α} {m : List (κ × α)} : 0 < (mapPut k v m).length :=
  List.length_pos_of_mem mem_mapPut_self

theorem lookup_mapPut_self [BEq κ] [LawfulBEq κ] {k : κ} {v : α} {m : List (κ × α)} :
    (mapPut k v m).lookup k = some v := by
  induction m with
  | nil => simp [mapPut]
  | cons a m ih =>
    unfold mapPut
    split
    · simp
    · next h =>
      rw [show a = (a.1, a.2) from rfl, List.lookup_cons, ih]
      have : (k == a.1) = false := by simpa using fun h' => h h'.symm
      rw [this]

theorem mem_of_lookup [BEq κ] [LawfulBEq κ] {k : κ} {v : α} {m : List (κ × α)}
    (h : m.lookup k = some v) : (k, v) ∈ m := by
  induction m with
  | nil => simp at h
  | cons a m ih =>
    rw [show a = (a.1, a.2) from rfl, List.lookup_cons] at h
    by_cases hk : k = a.1
    · subst hk
      simp at h
      subst h
      simp
    · have : (k == a.1) = false := by simpa using hk
      rw [this] at h
      exact List.mem_cons_of_mem _ (ih h)

theorem lookup_of_mem [BEq κ] [LawfulBEq κ] {k : κ} {v : α} {m : List (κ × α)}
    (h : (k, v) ∈ m) : ∃ w, m.lookup k = some w := by
  induction m with
  | nil => simp at h
  | cons a m ih =>
    rw [show a = (a.1, a.2) from rfl, List.lookup_cons]
    by_cases hk : k = a.1
    · subst hk; simp
    · have : (k == a.1) = false := by simpa using hk
      rw [this]
      rcases List.mem_cons.1 h with h | h
      · exact absurd (congrArg Prod.fst h) hk
      · exact ih h
end

namespace RateTable
variable {K : Type _}

theorem hasKey_iff {key : Nat} {t : List (Nat × K)} : hasKey key t = true ↔ ∃ v, (key, v) ∈ t := by
  unfold hasKey
  rw [List.any_eq_true]
  constructor
  · rintro ⟨e, he, h⟩
    have : e.1 = key := by simpa using h
    exact ⟨e.2, by subst this; exact he⟩
  · rintro ⟨v, hv⟩
    exact ⟨_, hv, by simp⟩

theorem stored_none {r : RateTable K} {key : Nat} :
    r.stored key = none ↔ ∀ t ∈ r.tables, ∀ v, (key, v) ∉ t := by
  unfold stored
  rw [List.findIdx?_eq_none_iff]
  constructor
  · intro h t ht v hv
    have := h t ht
    rw [Bool.eq_false_iff] at this
    exact this (hasKey_iff.2 ⟨v, hv⟩)
  · intro h t ht
    rw [Bool.eq_false_iff]
    intro h'
    obtain ⟨v, hv⟩ := hasKey_iff.1 h'
    exact h t ht v hv

theorem retrieve_ok_of_stored {r : RateTable K} {key i : Nat} (h : r.stored key = some i) :
    ∃ t v, r.tables[i]? = some t ∧ t.lookup key = some v ∧ r.retrieve key = .ok v := by
  have h' := h
  unfold stored at h'
  rw [List.findIdx?_eq_some_iff_getElem] at h'
  obtain ⟨hi, hk, -⟩ := h'
  obtain ⟨w, hw⟩ := hasKey_iff.1 hk
  obtain ⟨v, hv⟩ := lookup_of_mem hw
  refine ⟨r.tables[i], v, List.getElem?_eq_getElem hi, hv, ?_⟩
  unfold retrieve
  simp only [h, List.getElem?_eq_getElem hi, hv]

theorem retrieve_ok_iff {r : RateTable K} {key : Nat} :
    (∃ v, r.retrieve key = .ok v) ↔ r.stored key ≠ none := by
  constructor
  · rintro ⟨v, hv⟩ h
    unfold retrieve at hv
    simp only [h] at hv
    cases hv
  · intro h
    cases hs : r.stored key with
    | none => exact absurd hs h
    | some i =>
      obtain ⟨_, v, _, _, hv⟩ := retrieve_ok_of_stored hs
      exact ⟨v, hv⟩

theorem mem_of_retrieve {r : RateTable K} {key : Nat} {v : K} (h : r.retrieve key = .ok v) :
    ∃ t ∈ r.tables, (key, v) ∈ t := by
  have : r.stored key ≠ none := retrieve_ok_iff.1 ⟨v, h⟩
  cases hs : r.stored key with
  | none => exact absurd hs this
  | some i =>
    obtain ⟨t, w, ht, hw, hr⟩ := retrieve_ok_of_stored hs
    rw [h] at hr
    cases hr
    exact ⟨t, List.mem_of_getElem? ht, mem_of_lookup hw⟩

/-- What holds of the cache after storing the pairs `h`. -/
structure Inv (nt ms : Nat) (h : List (Nat × K)) (r : RateTable K) : Prop where
  maxSize : r.maxSize = ms
  nTables : r.tables.length = nt
  current : r.current < nt
  small : ∀ t ∈ r.tables, t.length ≤ ms
  open_ : ∀ t, r.tables[r.current]? = some t → t.length < ms
  hist : ∀ t ∈ r.tables, ∀ e ∈ t, e ∈ h

theorem Inv.empty : Inv 8 1024 [] (RateTable.empty : RateTable K) where
  maxSize := rfl
  nTables := by simp [RateTable.empty]
  current := by simp [RateTable.empty]
  small := by
    intro t ht
    have : t = [] := by simpa [RateTable.empty] using ht
    subst this; simp
  open_ := by
    intro t ht
    have := List.mem_of_getElem? ht
    have : t = [] := by simpa [RateTable.empty] using this
    subst this; simp
  hist := by
    intro t ht e he
    have : t = [] := by simpa [RateTable.empty] using ht
    subst this; simp at he

/-- Storing succeeds and its result is described exactly. -/
theorem Inv.store {nt ms : Nat} {h : List (Nat × K)} {r : RateTable K} (inv : Inv nt ms h r)
    (hms : 0 < ms) (key : Nat) (v : K) :
    ∃ r', r.store key v = .ok r' ∧ Inv nt ms (h ++ [(key, v)]) r' ∧
      (1 < nt → 1 < ms → ∃ t ∈ r'.tables, (key, v) ∈ t ∧ t.lookup key = some v) ∧
      (∀ k w, k ≠ key → (∃ t ∈ r'.tables, (k, w) ∈ t) → ∃ t ∈ r.tables, (k, w) ∈ t) := by
  have hc : r.current < r.tables.length := by rw [inv.nTables]; exact inv.current
  obtain ⟨t, ht⟩ : ∃ t, r.tables[r.current]? = some t := ⟨_, List.getElem?_eq_getElem hc⟩
  have htm := List.mem_of_getElem? ht
  have hopen := inv.open_ t ht
  have hlen := @length_mapPut_le _ _ _ key v t
  have hput : ∀ e ∈ mapPut key v t, e ∈ h ++ [(key, v)] := by
    intro e he
    rcases mem_mapPut he with rfl | he
    · simp
    · exact List.mem_append_left _ (inv.hist t htm e he)
  have hmem : ∀ u ∈ r.tables.set r.current (mapPut key v t), u = mapPut key v t ∨ u ∈ r.tables :=
    fun u hu => (List.mem_or_eq_of_mem_set hu).symm
  have hold : ∀ u ∈ r.tables.set r.current (mapPut key v t), ∀ k w, k ≠ key → (k, w) ∈ u →
      ∃ t ∈ r.tables, (k, w) ∈ t := by
    intro u hu k w hk hw
    rcases hmem u hu with rfl | hu
    · rcases mem_mapPut hw with h | h
      · exact absurd (congrArg Prod.fst h) hk
      · exact ⟨t, htm, h⟩
    · exact ⟨u, hu, hw⟩
  unfold RateTable.store
  rw [rd_of_getElem? ht, ok_bind]
  dsimp only
  rw [wr_of_lt hc, ok_bind]
  by_cases hfull : (mapPut key v t).length = r.maxSize
  · rw [if_pos hfull]
    have hcur : (r.current + 1) % r.tables.length < r.tables.length := Nat.mod_lt _ (by omega)
    rw [wr_of_lt (by simpa using hcur), ok_bind]
    refine ⟨_, rfl, ?_, ?_, ?_⟩
    · have hmem2 : ∀ u ∈ (r.tables.set r.current (mapPut key v t)).set
          ((r.current + 1) % r.tables.length) [], u = [] ∨ u = mapPut key v t ∨ u ∈ r.tables := by
        intro u hu
        rcases List.mem_or_eq_of_mem_set hu with hu | hu
        · exact .inr (hmem u hu)
        · exact .inl hu
      constructor
      · exact inv.maxSize
      · simp [inv.nTables]
      · rw [← inv.nTables]; exact hcur
      · intro u hu
        rcases hmem2 u hu with rfl | rfl | hu
        · simp
        · omega
        · exact inv.small u hu
      · intro u hu
        simp only [List.getElem?_set, List.length_set, hcur, if_true] at hu
        cases hu
        simpa using hms
      · intro u hu e he
        rcases hmem2 u hu with rfl | rfl | hu
        · simp at he
        · exact hput e he
        · exact List.mem_append_left _ (inv.hist u hu e he)
    · intro hnt _
      refine ⟨mapPut key v t, ?_, mem_mapPut_self, lookup_mapPut_self⟩
      rw [← inv.nTables] at hnt
      have hne : (r.current + 1) % r.tables.length ≠ r.current := by
        intro hh
        by_cases hl : r.current + 1 < r.tables.length
        · rw [Nat.mod_eq_of_lt hl] at hh; omega
        · have : r.current + 1 = r.tables.length := by omega
          rw [this, Nat.mod_self] at hh; omega
      apply List.mem_of_getElem? (i := r.current)
      rw [List.getElem?_set_ne hne, List.getElem?_set_self hc]
    · rintro k w hk ⟨u, hu, hw⟩
      rcases List.mem_or_eq_of_mem_set hu with hu | rfl
      · exact hold u hu k w hk hw
      · simp at hw
  · rw [if_neg hfull]
    refine ⟨_, rfl, ?_, ?_, ?_⟩
    · constructor
      · exact inv.maxSize
      · simp [inv.nTables]
      · exact inv.current
      · intro u hu
        rcases hmem u hu with rfl | hu
        · omega
        · exact inv.small u hu
      · intro u hu
        simp only [List.getElem?_set_self hc, Option.some.injEq] at hu
        subst hu
        rw [inv.maxSize] at hfull
        omega
      · intro u hu e he
        rcases hmem u hu with rfl | hu
        · exact hput e he
        · exact List.mem_append_left _ (inv.hist u hu e he)
    · intro _ _
      refine ⟨mapPut key v t, ?_, mem_mapPut_self, lookup_mapPut_self⟩
      apply List.mem_of_getElem? (i := r.current)
      rw [List.getElem?_set_self hc]
    · rintro k w hk ⟨u, hu, hw⟩
      exact hold u hu k w hk hw

/-- The cache after a sequence of stores. -/
def run (h : List (Nat × K)) : M (RateTable K) :=
  loopM (fun r e => r.store e.1 e.2) h RateTable.empty

theorem run_append (h : List (Nat × K)) (e : Nat × K) :
    run (h ++ [e]) = (run h >>= fun r => r.store e.1 e.2) := by
  unfold run
  rw [loopM_append]
  congr 1
  funext r
  rw [loopM_cons]
  cases r.store e.1 e.2 <;> rfl

theorem run_inv (h : List (Nat × K)) : ∃ r, run h = .ok r ∧ Inv 8 1024 h r := by
  induction h using List.reverseRecOn with
  | nil => exact ⟨_, rfl, Inv.empty⟩
  | append_singleton h e ih =>
    obtain ⟨r, hr, inv⟩ := ih
    obtain ⟨r', h1, h2, -⟩ := inv.store (by omega) e.1 e.2
    exact ⟨r', by rw [run_append, hr]; exact h1, h2⟩

end RateTable
end KMC
