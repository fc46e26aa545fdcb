import Verif.Lemmas.Environment
import Mathlib.Data.List.Perm.Basic

/-!
# Performing a process
-/

set_option linter.unusedSectionVars false

namespace KMC

variable {K : Type _} [Field K] [LinearOrder K]

/-- The entry changes the site it is matched with. -/
def PEntry.Acts (p : PEntry K) : Prop :=
  Config.absSum p.updateTypes > 0 ∧ ¬ (p.updateTypes.getD 0 0 > 0)

instance (p : PEntry K) : Decidable p.Acts := by unfold PEntry.Acts; infer_instance

/-- The pairs of entries at which something changes. -/
def acting (pml : List (PEntry K)) (sml : List (CEntry K)) : List (PEntry K × CEntry K) :=
  (pml.zip sml).filter (fun e => decide e.1.Acts)

namespace Config

theorem absSum_pos_ne {u : Bucket} (h : absSum u > 0) : u ≠ [] := by
  rintro rfl
  simp [absSum] at h

/-- c++/src/configuration.cpp:313-364, the body for an entry that acts. -/
def actOne (st : Config K × List Nat) (p : PEntry K) (c : CEntry K) : M (Config K × List Nat) := do
  let cfg := st.1
  let affected := st.2
  let id ← rd cfg.atomId c.index
  let ac ← rd cfg.atomIdCoords id
  let atomIdCoords ← wr cfg.atomIdCoords id (ac + p.moveCoord)
  let t ← rd cfg.types c.index
  let t' ← addUpdate t p.updateTypes
  let types ← wr cfg.types c.index t'
  let els ← elementsOf cfg.typeNames t'
  let elements ← wr cfg.elements c.index els
  let atomIdElements ←
    if p.hasMove = false then do
      let e0 ← rd els 0
      wr cfg.atomIdElements id e0
    else pure cfg.atomIdElements
  let affected' ← wr affected cfg.nMoved c.index
  let movedIds ← wr cfg.movedIds cfg.nMoved id
  let moveVectors ← wr cfg.moveVectors cfg.nMoved p.moveCoord
  return ({ cfg with atomIdCoords := atomIdCoords, types := types, elements := elements,
                     atomIdElements := atomIdElements, movedIds := movedIds,
                     moveVectors := moveVectors, nMoved := cfg.nMoved + 1 }, affected')

theorem performEntry_eq (st : Config K × List Nat) (p : PEntry K) (c : CEntry K) :
    performEntry st p c = if p.Acts then actOne st p c else .ok st := by
  unfold performEntry
  by_cases h1 : absSum p.updateTypes > 0
  · have h0 := List.length_pos_iff.2 (absSum_pos_ne h1)
    have hg : p.updateTypes.getD 0 0 = p.updateTypes[0] := by
      rw [List.getD_eq_getElem?_getD, List.getElem?_eq_getElem h0]; rfl
    rw [if_pos h1, rd_of_lt h0, ok_bind]
    by_cases h2 : p.updateTypes[0] > 0
    · rw [if_neg (by simpa using h2), if_neg]
      · rfl
      · rintro ⟨-, h⟩
        rw [hg] at h
        exact h h2
    · rw [if_pos h2, if_pos ⟨h1, by rw [hg]; exact h2⟩]
      rfl
  · rw [if_neg h1, if_neg (fun h => h1 h.1)]
    rfl

theorem performLoop_eq : ∀ (pml : List (PEntry K)) (sml : List (CEntry K)) (st : Config K × List Nat),
    pml.length ≤ sml.length →
    performLoop pml sml st = loopM (fun st e => actOne st e.1 e.2) (acting pml sml) st
  | [], _, st, _ => rfl
  | p :: ps, [], st, h => by simp at h
  | p :: ps, c :: cs, st, h => by
    have ih := fun st => performLoop_eq ps cs st (by simpa using h)
    conv_lhs => unfold performLoop
    rw [performEntry_eq]
    unfold acting
    rw [List.zip_cons_cons]
    by_cases ha : p.Acts
    · rw [if_pos ha, List.filter_cons_of_pos (by simpa using ha), loopM_cons]
      congr 1
      funext st'
      exact ih st'
    · rw [if_neg ha, List.filter_cons_of_neg (by simpa using ha), ok_bind]
      exact ih st

theorem addUpdate_ok : ∀ (t u : Bucket), t.length = u.length → addUpdate t u = .ok (List.zipWith (· + ·) t u)
  | [], u, _ => by
    simp [addUpdate]
  | a :: t, [], h => by simp at h
  | a :: t, b :: u, h => by
    unfold addUpdate
    rw [addUpdate_ok t u (by simpa using h), ok_bind]
    rfl

theorem elementsOf_ok : ∀ (names : List String) (t : Bucket), t.length ≤ names.length →
    ∃ els, elementsOf names t = .ok els
  | _, [], _ => by cases ‹List String› <;> exact ⟨_, rfl⟩
  | [], _ :: _, h => by simp at h
  | n :: names, a :: t, h => by
    obtain ⟨els, he⟩ := elementsOf_ok names t (by simpa using h)
    unfold elementsOf
    rw [he, ok_bind]
    exact ⟨_, rfl⟩

theorem elementsOf_ne_nil : ∀ (names : List String) (t : Bucket) (els : List String),
    elementsOf names t = .ok els → (∃ v ∈ t, 0 < v) → els ≠ []
  | _, [], _, _, h => by obtain ⟨v, hv, -⟩ := h; simp at hv
  | [], a :: t, els, he, h => by
    unfold elementsOf at he
    split at he
    · cases he
    · next ha =>
      obtain ⟨v, hv, h0⟩ := h
      rcases List.mem_cons.1 hv with rfl | hv
      · exact absurd h0 (by omega)
      · exact elementsOf_ne_nil [] t els he ⟨v, hv, h0⟩
  | n :: names, a :: t, els, he, h => by
    unfold elementsOf at he
    rw [bind_ok] at he
    obtain ⟨r, hr, he⟩ := he
    cases he
    obtain ⟨v, hv, h0⟩ := h
    rcases List.mem_cons.1 hv with rfl | hv
    · intro hnil
      rw [List.append_eq_nil_iff, List.replicate_eq_nil_iff] at hnil
      omega
    · intro hnil
      exact elementsOf_ne_nil names t r hr ⟨v, hv, h0⟩ (List.append_eq_nil_iff.1 hnil).2

/-- Everything needed for the actions `es` to run. -/
structure Ready (n nT : Nat) (cfg : Config K) (aff : List Nat) (es : List (PEntry K × CEntry K)) : Prop where
  types : cfg.types.length = n
  elements : cfg.elements.length = n
  names : cfg.typeNames.length = nT
  ids : cfg.atomId.length = n
  idsLt : ∀ i ∈ cfg.atomId, i < n
  idEls : cfg.atomIdElements.length = n
  idCoords : cfg.atomIdCoords.length = n
  bucket : ∀ t ∈ cfg.types, t.length = nT
  index : ∀ e ∈ es, e.2.index < n
  update : ∀ e ∈ es, e.1.updateTypes.length = nT
  nodup : (es.map (·.2.index)).Nodup
  nonempty : ∀ e ∈ es, e.1.hasMove = false → ∀ t, cfg.types[e.2.index]? = some t →
    ∃ v ∈ List.zipWith (· + ·) t e.1.updateTypes, 0 < v
  roomA : cfg.nMoved + es.length ≤ aff.length
  roomI : cfg.nMoved + es.length ≤ cfg.movedIds.length
  roomV : cfg.nMoved + es.length ≤ cfg.moveVectors.length

/-- The effect of the actions `es`. -/
structure Done (cfg : Config K) (aff : List Nat) (es : List (PEntry K × CEntry K)) (cfg' : Config K)
    (aff' : List Nat) : Prop where
  rest : cfg' = { cfg with
    atomIdCoords := cfg'.atomIdCoords
    types := cfg'.types
    elements := cfg'.elements
    atomIdElements := cfg'.atomIdElements
    movedIds := cfg'.movedIds
    moveVectors := cfg'.moveVectors
    nMoved := cfg'.nMoved }
  typesLen : cfg'.types.length = cfg.types.length
  elementsLen : cfg'.elements.length = cfg.elements.length
  idElsLen : cfg'.atomIdElements.length = cfg.atomIdElements.length
  idCoordsLen : cfg'.atomIdCoords.length = cfg.atomIdCoords.length
  typeAt : ∀ e ∈ es, ∀ t, cfg.types[e.2.index]? = some t →
    cfg'.types[e.2.index]? = some (List.zipWith (· + ·) t e.1.updateTypes)
  typeOff : ∀ i, i ∉ es.map (·.2.index) → cfg'.types[i]? = cfg.types[i]?
  elementAt : ∀ e ∈ es, ∀ t, cfg'.types[e.2.index]? = some t →
    ∃ els, elementsOf cfg.typeNames t = .ok els ∧ cfg'.elements[e.2.index]? = some els
  elementOff : ∀ i, i ∉ es.map (·.2.index) → cfg'.elements[i]? = cfg.elements[i]?
  coordAt : cfg.atomId.Nodup → ∀ e ∈ es, ∀ id ac, cfg.atomId[e.2.index]? = some id → cfg.atomIdCoords[id]? = some ac →
    cfg'.atomIdCoords[id]? = some (ac + e.1.moveCoord)
  coordOff : ∀ id, (∀ e ∈ es, cfg.atomId[e.2.index]? ≠ some id) →
    cfg'.atomIdCoords[id]? = cfg.atomIdCoords[id]?
  idElAt : cfg.atomId.Nodup → ∀ e ∈ es, ∀ id, cfg.atomId[e.2.index]? = some id → e.1.hasMove = false →
    ∀ els, cfg'.elements[e.2.index]? = some els → cfg'.atomIdElements[id]? = els[0]?
  idElOff : ∀ id, (∀ e ∈ es, e.1.hasMove = false → cfg.atomId[e.2.index]? ≠ some id) →
    cfg'.atomIdElements[id]? = cfg.atomIdElements[id]?
  moved : cfg'.nMoved = cfg.nMoved + es.length
  aff : aff' = aff.take cfg.nMoved ++ es.map (·.2.index) ++ aff.drop (cfg.nMoved + es.length)
  ids : cfg'.movedIds = cfg.movedIds.take cfg.nMoved ++
    es.map (fun e => cfg.atomId.getD e.2.index 0) ++ cfg.movedIds.drop (cfg.nMoved + es.length)
  vectors : cfg'.moveVectors = cfg.moveVectors.take cfg.nMoved ++
    es.map (fun e => e.1.moveCoord) ++ cfg.moveVectors.drop (cfg.nMoved + es.length)

theorem Done.nil (cfg : Config K) (aff : List Nat) : Done cfg aff [] cfg aff where
  rest := rfl
  typesLen := rfl
  elementsLen := rfl
  idElsLen := rfl
  idCoordsLen := rfl
  typeAt := by simp
  typeOff := by simp
  elementAt := by simp
  elementOff := by simp
  coordAt := by simp
  coordOff := by simp
  idElAt := by simp
  idElOff := by simp
  moved := by simp
  aff := by simp
  ids := by simp
  vectors := by simp

theorem set_window {α : Type _} (xs : List α) (k m : Nat) (v : α) (ys : List α) (h : k + 1 + m ≤ xs.length)
    (hm : ys.length = m) :
    (xs.set k v).take (k + 1) ++ ys ++ (xs.set k v).drop (k + 1 + m) =
      xs.take k ++ (v :: ys) ++ xs.drop (k + (m + 1)) := by
  have hk : k < xs.length := by omega
  have h1 : (xs.set k v).take (k + 1) = xs.take k ++ [v] := by
    rw [List.take_succ_eq_append_getElem (by simpa using hk)]
    rw [List.take_set_of_le (by omega)]
    simp
  have h2 : (xs.set k v).drop (k + 1 + m) = xs.drop (k + (m + 1)) := by
    rw [List.drop_set_of_lt (by omega)]
    congr 1
    omega
  rw [h1, h2]
  simp

theorem actLoop_ok {n nT : Nat} (es : List (PEntry K × CEntry K)) (cfg : Config K) (aff : List Nat)
    (h : Ready n nT cfg aff es) :
    ∃ cfg' aff', loopM (fun st e => actOne st e.1 e.2) es (cfg, aff) = .ok (cfg', aff') ∧
      Done cfg aff es cfg' aff' := by
  induction es generalizing cfg aff with
  | nil => exact ⟨cfg, aff, rfl, Done.nil cfg aff⟩
  | cons e es ih =>
    have hi : e.2.index < n := h.index e (by simp)
    have hnd := h.nodup
    rw [List.map_cons, List.nodup_cons] at hnd
    have hid := List.getElem?_eq_getElem (l := cfg.atomId) (i := e.2.index) (by rw [h.ids]; exact hi)
    obtain ⟨id, hid'⟩ : ∃ id, cfg.atomId[e.2.index]? = some id := ⟨_, hid⟩
    have hidlt : id < n := h.idsLt id (List.mem_of_getElem? hid')
    obtain ⟨ac, hac⟩ : ∃ ac, cfg.atomIdCoords[id]? = some ac :=
      ⟨_, List.getElem?_eq_getElem (by rw [h.idCoords]; exact hidlt)⟩
    obtain ⟨t, ht⟩ : ∃ t, cfg.types[e.2.index]? = some t :=
      ⟨_, List.getElem?_eq_getElem (by rw [h.types]; exact hi)⟩
    have htl : t.length = nT := h.bucket t (List.mem_of_getElem? ht)
    have hadd := addUpdate_ok t e.1.updateTypes (by rw [htl, h.update e (by simp)])
    obtain ⟨els, hels⟩ := elementsOf_ok cfg.typeNames (List.zipWith (· + ·) t e.1.updateTypes)
      (by simp [htl, h.update e (by simp), h.names])
    have hroomA := h.roomA
    have hroomI := h.roomI
    have hroomV := h.roomV
    simp only [List.length_cons] at hroomA hroomI hroomV
    obtain ⟨aie, haie, haie', haie2, haie3⟩ : ∃ aie,
        (if e.1.hasMove = false then (do let e0 ← rd els 0; wr cfg.atomIdElements id e0)
          else pure cfg.atomIdElements) = .ok aie ∧ aie.length = cfg.atomIdElements.length ∧
        (e.1.hasMove = false → aie[id]? = els[0]?) ∧
        (∀ k, (e.1.hasMove = false → k ≠ id) → aie[k]? = cfg.atomIdElements[k]?) := by
      by_cases hm : e.1.hasMove = false
      · have hne := elementsOf_ne_nil _ _ _ hels (h.nonempty e (by simp) hm t ht)
        have h0 := List.length_pos_iff.2 hne
        refine ⟨cfg.atomIdElements.set id els[0], ?_, by simp, ?_, ?_⟩
        · rw [if_pos hm, rd_of_lt h0, ok_bind, wr_of_lt (by rw [h.idEls]; exact hidlt)]
        · intro _
          rw [List.getElem?_eq_getElem h0]
          simp [h.idEls, hidlt]
        · intro k hk
          rw [List.getElem?_set_ne (Ne.symm (hk hm))]
      · exact ⟨cfg.atomIdElements, by rw [if_neg hm]; rfl, rfl, fun h' => absurd h' hm, fun _ _ => rfl⟩
    obtain ⟨cfg1, hcfg1⟩ : ∃ cfg1 : Config K, cfg1 = { cfg with
      atomIdCoords := cfg.atomIdCoords.set id (ac + e.1.moveCoord)
      types := cfg.types.set e.2.index (List.zipWith (· + ·) t e.1.updateTypes)
      elements := cfg.elements.set e.2.index els
      atomIdElements := aie
      movedIds := cfg.movedIds.set cfg.nMoved id
      moveVectors := cfg.moveVectors.set cfg.nMoved e.1.moveCoord
      nMoved := cfg.nMoved + 1 } := ⟨_, rfl⟩
    have hact : actOne (cfg, aff) e.1 e.2 = .ok (cfg1, aff.set cfg.nMoved e.2.index) := by
      unfold actOne
      dsimp only
      rw [rd_of_getElem? hid', ok_bind, rd_of_getElem? hac, ok_bind,
        wr_of_lt (by rw [h.idCoords]; exact hidlt), ok_bind, rd_of_getElem? ht, ok_bind, hadd, ok_bind,
        wr_of_lt (by rw [h.types]; exact hi), ok_bind, hels, ok_bind,
        wr_of_lt (by rw [h.elements]; exact hi), ok_bind]
      have hrest : ∀ x : M (List String), x = .ok aie → (do
          let atomIdElements ← x
          let affected' ← wr aff cfg.nMoved e.2.index
          let movedIds ← wr cfg.movedIds cfg.nMoved id
          let moveVectors ← wr cfg.moveVectors cfg.nMoved e.1.moveCoord
          return ({ cfg with
            atomIdCoords := cfg.atomIdCoords.set id (ac + e.1.moveCoord)
            types := cfg.types.set e.2.index (List.zipWith (· + ·) t e.1.updateTypes)
            elements := cfg.elements.set e.2.index els
            atomIdElements := atomIdElements
            movedIds := movedIds
            moveVectors := moveVectors
            nMoved := cfg.nMoved + 1 }, affected') : M (Config K × List Nat)) =
            .ok (cfg1, aff.set cfg.nMoved e.2.index) := by
        rintro x rfl
        rw [ok_bind, wr_of_lt (by omega), ok_bind, wr_of_lt (by omega), ok_bind, wr_of_lt (by omega), ok_bind,
          hcfg1]
        rfl
      rw [← hrest _ haie]
      by_cases hm : e.1.hasMove = false
      · rw [if_pos hm, if_pos hm]
        cases rd els 0 <;> rfl
      · rw [if_neg hm, if_neg hm]
    have hkeep : ∀ f ∈ es, f.2.index ≠ e.2.index := by
      intro f hf heq
      exact hnd.1 (List.mem_map.2 ⟨f, hf, heq⟩)
    have hkeepId : cfg.atomId.Nodup → ∀ f ∈ es, cfg.atomId[f.2.index]? ≠ some id := by
      intro hidn f hf heq
      have hfl := h.index f (by simp [hf])
      obtain ⟨h1, h2⟩ := List.getElem?_eq_some_iff.1 heq
      obtain ⟨h3, h4⟩ := List.getElem?_eq_some_iff.1 hid'
      exact hkeep f hf ((hidn.getElem_inj_iff).1 (h2.trans h4.symm))
    have hready : Ready n nT cfg1 (aff.set cfg.nMoved e.2.index) es := by
      rw [hcfg1]
      refine ⟨by simpa using h.types, by simpa using h.elements, h.names, h.ids, h.idsLt,
        by simpa [haie'] using h.idEls, by simpa using h.idCoords, ?_, fun f hf => h.index f (by simp [hf]),
        fun f hf => h.update f (by simp [hf]), hnd.2, ?_, ?_, ?_, ?_⟩
      · intro b hb
        rcases List.mem_or_eq_of_mem_set hb with hb | rfl
        · exact h.bucket b hb
        · simp [htl, h.update e (by simp)]
      · intro f hf hm b hb
        simp only at hb
        rw [List.getElem?_set_ne (Ne.symm (hkeep f hf))] at hb
        exact h.nonempty f (by simp [hf]) hm b hb
      · simp only [List.length_set]; omega
      · simp only [List.length_set]; omega
      · simp only [List.length_set]; omega
    obtain ⟨cfg', aff', hl, hd⟩ := ih cfg1 (aff.set cfg.nMoved e.2.index) hready
    have k1 : cfg1.atomId = cfg.atomId := by rw [hcfg1]
    have k2 : cfg1.typeNames = cfg.typeNames := by rw [hcfg1]
    have k3 : cfg1.nMoved = cfg.nMoved + 1 := by rw [hcfg1]
    have k4 : cfg1.types = cfg.types.set e.2.index (List.zipWith (· + ·) t e.1.updateTypes) := by rw [hcfg1]
    have k5 : cfg1.elements = cfg.elements.set e.2.index els := by rw [hcfg1]
    have k6 : cfg1.atomIdCoords = cfg.atomIdCoords.set id (ac + e.1.moveCoord) := by rw [hcfg1]
    have k7 : cfg1.atomIdElements = aie := by rw [hcfg1]
    have k8 : cfg1.movedIds = cfg.movedIds.set cfg.nMoved id := by rw [hcfg1]
    have k9 : cfg1.moveVectors = cfg.moveVectors.set cfg.nMoved e.1.moveCoord := by rw [hcfg1]
    have hty : cfg'.types[e.2.index]? = some (List.zipWith (· + ·) t e.1.updateTypes) := by
      rw [hd.typeOff _ hnd.1, k4]
      simp [h.types, hi]
    have hel : cfg'.elements[e.2.index]? = some els := by
      rw [hd.elementOff _ hnd.1, k5]
      simp [h.elements, hi]
    refine ⟨cfg', aff', by rw [loopM_cons, hact, ok_bind, hl], ?_, ?_, ?_, ?_, ?_, ?_, ?_, ?_, ?_, ?_, ?_, ?_,
      ?_, ?_, ?_, ?_, ?_⟩
    · have := hd.rest
      rw [this, hcfg1]
    · rw [hd.typesLen, k4]; simp
    · rw [hd.elementsLen, k5]; simp
    · rw [hd.idElsLen, k7, haie']
    · rw [hd.idCoordsLen, k6]; simp
    · intro f hf b hb
      rcases List.mem_cons.1 hf with rfl | hf
      · rw [ht, Option.some.injEq] at hb
        subst hb
        exact hty
      · apply hd.typeAt f hf
        rw [k4, List.getElem?_set_ne (Ne.symm (hkeep f hf))]
        exact hb
    · intro i hi'
      rw [List.map_cons, List.mem_cons, not_or] at hi'
      rw [hd.typeOff i hi'.2, k4, List.getElem?_set_ne (Ne.symm hi'.1)]
    · intro f hf b hb
      rcases List.mem_cons.1 hf with rfl | hf
      · rw [hty, Option.some.injEq] at hb
        subst hb
        exact ⟨els, hels, hel⟩
      · have := hd.elementAt f hf b hb
        rw [k2] at this
        exact this
    · intro i hi'
      rw [List.map_cons, List.mem_cons, not_or] at hi'
      rw [hd.elementOff i hi'.2, k5, List.getElem?_set_ne (Ne.symm hi'.1)]
    · intro hidn f hf fid fac hfid hfac
      rcases List.mem_cons.1 hf with rfl | hf
      · rw [hid', Option.some.injEq] at hfid
        subst hfid
        rw [hac, Option.some.injEq] at hfac
        subst hfac
        rw [hd.coordOff id (fun g hg => by rw [k1]; exact hkeepId hidn g hg), k6]
        simp [h.idCoords, hidlt]
      · apply hd.coordAt (by rw [k1]; exact hidn) f hf fid fac (by rw [k1]; exact hfid)
        have hne : id ≠ fid := by
          rintro rfl
          exact hkeepId hidn f hf hfid
        rw [k6, List.getElem?_set_ne hne]
        exact hfac
    · intro fid hfid
      have hne : id ≠ fid := by
        rintro rfl
        exact hfid e (by simp) hid'
      rw [hd.coordOff fid (fun g hg => by rw [k1]; exact hfid g (by simp [hg])), k6,
        List.getElem?_set_ne hne]
    · intro hidn f hf fid hfid hm fels hfels
      rcases List.mem_cons.1 hf with rfl | hf
      · rw [hid', Option.some.injEq] at hfid
        subst hfid
        rw [hel, Option.some.injEq] at hfels
        subst hfels
        rw [hd.idElOff id (fun g hg _ => by rw [k1]; exact hkeepId hidn g hg), k7, haie2 hm]
      · exact hd.idElAt (by rw [k1]; exact hidn) f hf fid (by rw [k1]; exact hfid) hm fels hfels
    · intro fid hfid
      rw [hd.idElOff fid (fun g hg hm => by rw [k1]; exact hfid g (by simp [hg]) hm), k7]
      apply haie3
      intro hm
      rintro rfl
      exact hfid e (by simp) hm hid'
    · rw [hd.moved, k3, List.length_cons]; omega
    · rw [hd.aff, k3, set_window _ _ _ _ _ (by omega) (by simp)]
      simp
    · rw [hd.ids, k3, k1, k8, set_window _ _ _ _ _ (by omega) (by simp)]
      simp [hid']
    · rw [hd.vectors, k3, k9, set_window _ _ _ _ _ (by omega) (by simp)]
      simp

/-! ### Moving atom ids -/

/-- The effect of the id updates `ups` (pairs of id and target site). -/
structure Moved (cfg : Config K) (ups : List (Nat × Nat)) (cfg' : Config K) : Prop where
  rest : cfg' = { cfg with
    atomId := cfg'.atomId
    atomIdElements := cfg'.atomIdElements }
  idsLen : cfg'.atomId.length = cfg.atomId.length
  idElsLen : cfg'.atomIdElements.length = cfg.atomIdElements.length
  idAt : (ups.map (·.2)).Nodup → ∀ u ∈ ups, cfg'.atomId[u.2]? = some u.1
  idOff : ∀ i, i ∉ ups.map (·.2) → cfg'.atomId[i]? = cfg.atomId[i]?
  idMem : ∀ (i x : Nat), cfg'.atomId[i]? = some x → cfg.atomId[i]? = some x ∨ (x, i) ∈ ups
  elAt : (ups.map (·.1)).Nodup → ∀ u ∈ ups, ∀ els, cfg.elements[u.2]? = some els → cfg'.atomIdElements[u.1]? = els[0]?
  elOff : ∀ i, i ∉ ups.map (·.1) → cfg'.atomIdElements[i]? = cfg.atomIdElements[i]?

theorem applyLoop_ok (ups : List (Nat × Nat)) (cfg : Config K)
    (hid : ∀ u ∈ ups, u.1 < cfg.atomIdElements.length) (hsite : ∀ u ∈ ups, u.2 < cfg.atomId.length)
    (hel : ∀ u ∈ ups, ∃ els, cfg.elements[u.2]? = some els ∧ els ≠ []) :
    ∃ cfg', loopM applyIdUpdate ups cfg = .ok cfg' ∧ Moved cfg ups cfg' := by
  induction ups generalizing cfg with
  | nil => exact ⟨cfg, rfl, rfl, rfl, rfl, by simp, by simp, fun i x h => .inl h, by simp, by simp⟩
  | cons u us ih =>
    obtain ⟨els, hels, hne⟩ := hel u (by simp)
    have h0 := List.length_pos_iff.2 hne
    have hu1 := hid u (by simp)
    have hu2 := hsite u (by simp)
    have h1 : applyIdUpdate cfg u = .ok { cfg with
        atomId := cfg.atomId.set u.2 u.1
        atomIdElements := cfg.atomIdElements.set u.1 els[0] } := by
      unfold applyIdUpdate
      rw [wr_of_lt hu2, ok_bind, rd_of_getElem? hels, ok_bind, rd_of_lt h0, ok_bind, wr_of_lt hu1, ok_bind]
      rfl
    obtain ⟨cfg', h2, h3⟩ := ih { cfg with
        atomId := cfg.atomId.set u.2 u.1
        atomIdElements := cfg.atomIdElements.set u.1 els[0] }
      (fun v hv => by simpa using hid v (by simp [hv])) (fun v hv => by simpa using hsite v (by simp [hv]))
      (fun v hv => hel v (by simp [hv]))
    refine ⟨cfg', by rw [loopM_cons, h1, ok_bind, h2], ?_, ?_, ?_, ?_, ?_, ?_, ?_, ?_⟩
    · rw [h3.rest]
    · rw [h3.idsLen]; simp
    · rw [h3.idElsLen]; simp
    · intro hn2 v hv
      rw [List.map_cons, List.nodup_cons] at hn2
      rcases List.mem_cons.1 hv with rfl | hv
      · rw [h3.idOff _ hn2.1]
        simp [hu2]
      · exact h3.idAt hn2.2 v hv
    · intro i hi
      rw [List.map_cons, List.mem_cons, not_or] at hi
      rw [h3.idOff i hi.2]
      simp only
      rw [List.getElem?_set_ne (Ne.symm hi.1)]
    · intro i x hx
      rcases h3.idMem i x hx with h | h
      · simp only at h
        rw [List.getElem?_set] at h
        by_cases hi : u.2 = i
        · rw [if_pos hi, if_pos hu2, Option.some.injEq] at h
          right
          rw [List.mem_cons]
          left
          rw [← h, ← hi]
        · rw [if_neg hi] at h
          exact .inl h
      · exact .inr (by simp [h])
    · intro hn1 v hv e he
      rw [List.map_cons, List.nodup_cons] at hn1
      rcases List.mem_cons.1 hv with rfl | hv
      · rw [hels, Option.some.injEq] at he
        subst he
        rw [h3.elOff _ hn1.1]
        simp [hu1]
      · exact h3.elAt hn1.2 v hv e he
    · intro i hi
      rw [List.map_cons, List.mem_cons, not_or] at hi
      rw [h3.elOff i hi.2]
      simp only
      rw [List.getElem?_set_ne (Ne.symm hi.1)]

/-! ### The whole event -/

/-- The elements written for a bucket are the ones counted in it. -/
theorem elementsOf_mem : ∀ (names : List String) (t : Bucket) (els : List String),
    elementsOf names t = .ok els → ∀ e ∈ els, e ∈ names
  | [], [], els, he => by cases he; simp
  | _ :: _, [], els, he => by cases he; simp
  | [], a :: t, els, he => by
    unfold elementsOf at he
    split at he
    · cases he
    · exact elementsOf_mem [] t els he
  | n :: names, a :: t, els, he => by
    unfold elementsOf at he
    rw [bind_ok] at he
    obtain ⟨r, hr, he⟩ := he
    cases he
    intro e hem
    rcases List.mem_append.1 hem with hm | hm
    · rw [List.eq_of_mem_replicate hm]; simp
    · exact List.mem_cons_of_mem _ (elementsOf_mem names t r hr e hm)

theorem elementsOf_count : ∀ (names : List String) (t : Bucket) (els : List String),
    elementsOf names t = .ok els → names.Nodup → (∀ v ∈ t, 0 ≤ v) → ∀ (k : Nat) (name : String) (v : Int),
    names[k]? = some name → t[k]? = some v → v = (els.count name : Int)
  | _, [], _, _, _, _, k, _, _, _, hv => by simp at hv
  | [], a :: t, _, _, _, _, k, _, _, hk, _ => by simp at hk
  | n :: names, a :: t, els, he, hn, h0, k, name, v, hk, hv => by
    unfold elementsOf at he
    rw [bind_ok] at he
    obtain ⟨r, hr, he⟩ := he
    cases he
    rw [List.nodup_cons] at hn
    rw [List.count_append, List.count_replicate]
    cases k with
    | zero =>
      simp only [List.getElem?_cons_zero, Option.some.injEq] at hk hv
      subst hk hv
      have hz : r.count n = 0 := List.count_eq_zero_of_not_mem
        (fun hm => hn.1 (elementsOf_mem names t r hr n hm))
      have := h0 a (by simp)
      rw [hz]
      simp
      omega
    | succ k =>
      simp only [List.getElem?_cons_succ] at hk hv
      have hne : n ≠ name := by
        rintro rfl
        exact hn.1 (List.mem_of_getElem? hk)
      rw [elementsOf_count names t r hr hn.2 (fun w hw => h0 w (by simp [hw])) k name v hk hv]
      simp [hne]

/-- The site an id move starts from, and the one it ends at. -/
def moveFrom (sml : List (CEntry K)) (mv : Nat × Nat) : Nat := ((sml[mv.1]?).map (·.index)).getD 0
def moveTo (sml : List (CEntry K)) (mv : Nat × Nat) : Nat := ((sml[mv.2]?).map (·.index)).getD 0

/-- The id updates of an event. -/
def idUpdates (atomId : List Nat) (sml : List (CEntry K)) (idMoves : List (Nat × Nat)) : List (Nat × Nat) :=
  idMoves.map fun mv => (atomId.getD (moveFrom sml mv) 0, moveTo sml mv)

/-- What the event needs besides. -/
structure EventOk (n nT : Nat) (cfg : Config K) (pml : List (PEntry K)) (sml : List (CEntry K))
    (idMoves : List (Nat × Nat)) (aff : List Nat) : Prop where
  len : pml.length ≤ sml.length
  index : ∀ c ∈ sml, c.index < n
  update : ∀ p ∈ pml, p.Acts → p.updateTypes.length = nT
  nodup : ((acting pml sml).map (·.2.index)).Nodup
  nonempty : ∀ e ∈ acting pml sml, ∀ t, cfg.types[e.2.index]? = some t →
    ∃ v ∈ List.zipWith (· + ·) t e.1.updateTypes, 0 < v
  roomA : (acting pml sml).length ≤ aff.length
  roomI : (acting pml sml).length ≤ cfg.movedIds.length
  roomV : (acting pml sml).length ≤ cfg.moveVectors.length
  moves : ∀ mv ∈ idMoves, mv.1 < sml.length ∧ mv.2 < sml.length

theorem mem_acting {pml : List (PEntry K)} {sml : List (CEntry K)} {e : PEntry K × CEntry K}
    (h : e ∈ acting pml sml) : e.1 ∈ pml ∧ e.2 ∈ sml ∧ e.1.Acts := by
  unfold acting at h
  rw [List.mem_filter] at h
  obtain ⟨h1, h2⟩ := h
  exact ⟨(List.of_mem_zip h1).1, (List.of_mem_zip h1).2, by simpa using h2⟩

theorem moveFrom_eq {sml : List (CEntry K)} {mv : Nat × Nat} {c : CEntry K} (h : sml[mv.1]? = some c) :
    moveFrom sml mv = c.index := by simp [moveFrom, h]

theorem moveTo_eq {sml : List (CEntry K)} {mv : Nat × Nat} {c : CEntry K} (h : sml[mv.2]? = some c) :
    moveTo sml mv = c.index := by simp [moveTo, h]

/-- The event runs, and does what `Done` and `Moved` say. -/
theorem perform_ok {n nT : Nat} {cfg : Config K} (hg : Good n nT cfg) {pml : List (PEntry K)}
    {sml : List (CEntry K)} {idMoves : List (Nat × Nat)} {aff : List Nat} {site : Nat} (number : Nat)
    (hs : cfg.matchLists[site]? = some sml) (h : EventOk n nT cfg pml sml idMoves aff) :
    ∃ cfg1 cfg2 aff', cfg.perform number pml idMoves aff site = .ok (cfg2, aff') ∧
      Done { cfg with latestProcess := number, latestSite := site, nMoved := 0 } aff (acting pml sml) cfg1 aff' ∧
      Moved cfg1 (idUpdates cfg.atomId sml idMoves) cfg2 := by
  obtain ⟨cfg0, hcfg0⟩ : ∃ cfg0 : Config K, cfg0 =
    { cfg with latestProcess := number, latestSite := site, nMoved := 0 } := ⟨_, rfl⟩
  have hready : Ready n nT cfg0 aff (acting pml sml) := by
    rw [hcfg0]
    exact ⟨hg.shape.types, hg.shape.elements, hg.names, hg.shape.atomId, hg.idsLt,
      hg.shape.atomIdElements, hg.shape.atomIdCoords, hg.bucket,
      fun e he => h.index _ (mem_acting he).2.1, fun e he => h.update _ (mem_acting he).1 (mem_acting he).2.2,
      h.nodup, fun e he _ t ht => h.nonempty e he t ht, by simpa using h.roomA, by simpa using h.roomI,
      by simpa using h.roomV⟩
  obtain ⟨cfg1, aff', h1, h2⟩ := actLoop_ok (acting pml sml) cfg0 aff hready
  have hid1 : cfg1.atomId = cfg.atomId := by rw [h2.rest, hcfg0]
  have hnames : cfg0.typeNames = cfg.typeNames := by rw [hcfg0]
  have htypes : cfg0.types = cfg.types := by rw [hcfg0]
  have hels0 : cfg0.elements = cfg.elements := by rw [hcfg0]
  -- every site still has a particle
  have hne : ∀ i < n, ∃ els, cfg1.elements[i]? = some els ∧ els ≠ [] := by
    intro i hi
    by_cases hm : i ∈ (acting pml sml).map (·.2.index)
    · obtain ⟨e, he, rfl⟩ := List.mem_map.1 hm
      obtain ⟨t, ht⟩ : ∃ t, cfg.types[e.2.index]? = some t :=
        ⟨_, List.getElem?_eq_getElem (by rw [hg.shape.types]; exact hi)⟩
      have h3 := h2.typeAt e he t (by rw [htypes]; exact ht)
      obtain ⟨els, h4, h5⟩ := h2.elementAt e he _ h3
      exact ⟨els, h5, elementsOf_ne_nil _ _ _ h4 (h.nonempty e he t ht)⟩
    · rw [h2.elementOff i hm, hels0, List.getElem?_eq_getElem (by rw [hg.shape.elements]; exact hi)]
      exact ⟨_, rfl, hg.elements _ (List.getElem_mem _)⟩
  have hups : mapMM (idUpdate cfg1 sml) idMoves = .ok (idUpdates cfg.atomId sml idMoves) := by
    apply mapMM_eq_map
    intro mv hmv
    obtain ⟨m1, m2⟩ := h.moves mv hmv
    have e1 := List.getElem?_eq_getElem m1
    have e2 := List.getElem?_eq_getElem m2
    have hlt : sml[mv.1].index < cfg.atomId.length := by
      rw [hg.shape.atomId]; exact h.index _ (List.getElem_mem _)
    unfold idUpdate
    rw [rd_of_getElem? e1, ok_bind, rd_of_getElem? e2, ok_bind, hid1, rd_of_lt hlt, ok_bind,
      moveFrom_eq e1, moveTo_eq e2]
    simp [hlt]
  have hfrom : ∀ mv ∈ idMoves, moveFrom sml mv < n := by
    intro mv hmv
    rw [moveFrom_eq (List.getElem?_eq_getElem (h.moves mv hmv).1)]
    exact h.index _ (List.getElem_mem _)
  have hto : ∀ mv ∈ idMoves, moveTo sml mv < n := by
    intro mv hmv
    rw [moveTo_eq (List.getElem?_eq_getElem (h.moves mv hmv).2)]
    exact h.index _ (List.getElem_mem _)
  have hgetD : ∀ i < n, ∃ hi : i < cfg.atomId.length, cfg.atomId.getD i 0 = cfg.atomId[i] := by
    intro i hi
    have hi' : i < cfg.atomId.length := by rw [hg.shape.atomId]; exact hi
    exact ⟨hi', by simp [hi']⟩
  obtain ⟨cfg2, h3, h4⟩ := applyLoop_ok (idUpdates cfg.atomId sml idMoves) cfg1 (by
      intro u hu
      obtain ⟨mv, hmv, rfl⟩ := List.mem_map.1 hu
      obtain ⟨hi, he⟩ := hgetD _ (hfrom mv hmv)
      rw [h2.idElsLen, hcfg0]
      simp only [he]
      rw [hg.shape.atomIdElements]
      exact hg.idsLt _ (List.getElem_mem _)) (by
      intro u hu
      obtain ⟨mv, hmv, rfl⟩ := List.mem_map.1 hu
      rw [hid1, hg.shape.atomId]
      exact hto mv hmv) (by
      intro u hu
      obtain ⟨mv, hmv, rfl⟩ := List.mem_map.1 hu
      exact hne _ (hto mv hmv))
  refine ⟨cfg1, cfg2, aff', ?_, by rw [← hcfg0]; exact h2, h4⟩
  unfold perform
  rw [rd_of_getElem? hs, ok_bind]
  dsimp only
  rw [performLoop_eq _ _ _ h.len, ← hcfg0, h1, ok_bind]
  dsimp only
  rw [hups, ok_bind, h3, ok_bind]
  rfl

end Config
end KMC
