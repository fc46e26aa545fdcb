import Verif.Model.Trajectory
import Verif.Lemmas.Monad
import Verif.Props.Schedule
import Mathlib.Algebra.Order.Field.Rat

/-!
# C45: buffering does not lose or reorder frames

`C45_lattice` and `C45_xyz`: for all limits, sizes and readings of the clock, after a flush the file has the lines of
every appended frame once, in order; `C45_lattice_any`, `C45_xyz_any`: at any time the file and the buffers together
have them. `C45_bounded`: the buffer does not outgrow the limit. `C45_run` puts this together with the schedule of C42. The lattice trajectory needs two sites
(`C45_one_site`). `C45_short` is about the format for buckets.
-/

namespace KMC
open Traj PyRun

section
variable {B F X K : Type _} [Sub K] [LT K] [DecidableLT K]

/-- The frames that are appended in a sequence of calls. -/
def Traj.appended : List (Op F K) → List F
  | [] => []
  | .append f _ _ :: ops => f :: Traj.appended ops
  | .flush :: ops => Traj.appended ops

omit [Sub K] [LT K] [DecidableLT K] in
theorem Traj.appended_append (a b : List (Op F K)) : appended (a ++ b) = appended a ++ appended b := by
  induction a with
  | nil => rfl
  | cons x a ih =>
    cases x with
    | append f _ _ => simp [appended, ih]
    | flush => simpa [appended] using ih

/-- A writer that keeps frames in a buffer and writes them with `enc`: `Rep d x fs` says that `x` is in the file and
`fs` in the buffer. -/
structure Traj.Sound (w : Writer B F) (good : F → Prop) (enc : F → List X) (Rep : B → List X → List F → Prop) : Prop where
  store : ∀ d x fs f, Rep d x fs → good f → Rep (w.store f d) x (fs ++ [f])
  flush : ∀ d x fs, Rep d x fs → (w.flush d).1 = .ok () ∧ Rep (w.flush d).2 (x ++ fs.flatMap enc) []

theorem Traj.Sound.append {w : Writer B F} {good : F → Prop} {enc : F → List X} {Rep : B → List X → List F → Prop}
    (h : Sound w good enc Rep) (t : Base B K) (x : List X) (fs : List F) (f : F) (now now2 : K)
    (hr : Rep t.data x fs) (hf : good f) :
    ∃ t' x' fs', Traj.append w f now now2 t = (.ok (), t') ∧ Rep t'.data x' fs' ∧
      x' ++ fs'.flatMap enc = x ++ (fs ++ [f]).flatMap enc := by
  unfold Traj.append
  have hs := h.store _ _ _ f hr hf
  simp only
  split
  · obtain ⟨h1, h2⟩ := h.flush _ _ _ hs
    generalize hq : w.flush (w.store f t.data) = q at h1 h2
    obtain ⟨q1, q2⟩ := q
    simp only at h1 h2
    subst h1
    exact ⟨_, _, _, rfl, h2, by simp⟩
  · exact ⟨_, _, _, rfl, hs, rfl⟩

theorem Traj.Sound.exec {w : Writer B F} {good : F → Prop} {enc : F → List X} {Rep : B → List X → List F → Prop}
    (h : Sound w good enc Rep) : ∀ (ops : List (Op F K)) (t : Base B K) (x : List X) (fs : List F),
    Rep t.data x fs → (∀ f ∈ appended ops, good f) →
    ∃ t' x' fs', Traj.exec w ops t = (.ok (), t') ∧ Rep t'.data x' fs' ∧
      x' ++ fs'.flatMap enc = x ++ (fs ++ appended ops).flatMap enc := by
  intro ops
  induction ops with
  | nil =>
    intro t x fs hr _
    exact ⟨t, x, fs, rfl, hr, by simp [appended]⟩
  | cons op ops ih =>
    intro t x fs hr hg
    cases op with
    | append f a b =>
      obtain ⟨t1, x1, fs1, e1, e2, e3⟩ := h.append t x fs f a b hr (hg f (by simp [appended]))
      obtain ⟨t2, x2, fs2, g1, g2, g3⟩ := ih t1 x1 fs1 e2 (fun f hf => hg f (by simp [appended, hf]))
      refine ⟨t2, x2, fs2, ?_, g2, ?_⟩
      · unfold Traj.exec
        simp only [e1]
        exact g1
      · rw [g3, List.flatMap_append, ← List.append_assoc, e3]
        simp [appended]
    | flush =>
      obtain ⟨e1, e2⟩ := h.flush _ _ _ hr
      obtain ⟨t2, x2, fs2, g1, g2, g3⟩ := ih { t with data := (w.flush t.data).2 } _ _ e2 (fun f hf => hg f hf)
      refine ⟨t2, x2, fs2, ?_, g2, ?_⟩
      · unfold Traj.exec
        simp only [Traj.flush, e1]
        exact g1
      · rw [g3]
        simp [appended]

/-- What stays in the buffer after any calls is within the limit. -/
theorem Traj.Sound.bounded {w : Writer B F} {good : F → Prop} {enc : F → List X} {Rep : B → List X → List F → Prop}
    (h : Sound w good enc Rep) : ∀ (ops : List (Op F K)) (t : Base B K) (x : List X) (fs : List F),
    Rep t.data x fs → (∀ f ∈ appended ops, good f) → (fs = [] ∨ w.size t.data ≤ t.maxSize) →
    ∃ t' x' fs', Traj.exec w ops t = (.ok (), t') ∧ Rep t'.data x' fs' ∧ (fs' = [] ∨ w.size t'.data ≤ t.maxSize) := by
  intro ops
  induction ops with
  | nil =>
    intro t x fs hr _ hb
    exact ⟨t, x, fs, rfl, hr, hb⟩
  | cons op ops ih =>
    intro t x fs hr hg hb
    cases op with
    | append f a b =>
      obtain ⟨t1, x1, fs1, e1, e2, e3, e4⟩ : ∃ t' x' fs', Traj.append w f a b t = (.ok (), t') ∧ Rep t'.data x' fs' ∧
          t'.maxSize = t.maxSize ∧ (fs' = [] ∨ w.size t'.data ≤ t.maxSize) := by
        unfold Traj.append
        have hs := h.store _ _ _ f hr (hg f (by simp [appended]))
        simp only
        split
        · obtain ⟨h1, h2⟩ := h.flush _ _ _ hs
          generalize hq : w.flush (w.store f t.data) = q at h1 h2
          obtain ⟨q1, q2⟩ := q
          simp only at h1 h2
          subst h1
          exact ⟨_, _, _, rfl, h2, rfl, .inl rfl⟩
        · rename_i hc
          rw [not_or] at hc
          exact ⟨_, _, _, rfl, hs, rfl, .inr (Nat.le_of_not_lt hc.1)⟩
      obtain ⟨t2, x2, fs2, g1, g2, g3⟩ := ih t1 x1 fs1 e2 (fun f hf => hg f (by simp [appended, hf])) (by rw [e3]; exact e4)
      refine ⟨t2, x2, fs2, ?_, g2, by rw [← e3]; exact g3⟩
      unfold Traj.exec
      simp only [e1]
      exact g1
    | flush =>
      obtain ⟨e1, e2⟩ := h.flush _ _ _ hr
      obtain ⟨t2, x2, fs2, g1, g2, g3⟩ := ih { t with data := (w.flush t.data).2 } _ _ e2 (fun f hf => hg f hf) (.inl rfl)
      refine ⟨t2, x2, fs2, ?_, g2, g3⟩
      unfold Traj.exec
      simp only [Traj.flush, e1]
      exact g1

theorem Traj.Sound.exec_flush {w : Writer B F} {good : F → Prop} {enc : F → List X} {Rep : B → List X → List F → Prop}
    (h : Sound w good enc Rep) (ops : List (Op F K)) (t : Base B K) (x : List X) (fs : List F)
    (hr : Rep t.data x fs) (hg : ∀ f ∈ appended ops, good f) :
    ∃ t', Traj.exec w (ops ++ [.flush]) t = (.ok (), t') ∧ Rep t'.data (x ++ (fs ++ appended ops).flatMap enc) [] := by
  obtain ⟨t1, x1, fs1, e1, e2, e3⟩ := h.exec ops t x fs hr hg
  have happ : ∀ (ops : List (Op F K)) (t t1 : Base B K), Traj.exec w ops t = (.ok (), t1) →
      Traj.exec w (ops ++ [.flush]) t = Traj.exec w [.flush] t1 := by
    intro ops
    induction ops with
    | nil => intro t t1 e; obtain rfl := (Prod.mk.inj e).2; rfl
    | cons op ops ih =>
      intro t t1 e
      rw [List.cons_append]
      conv_lhs => unfold Traj.exec
      unfold Traj.exec at e
      split at e
      · rename_i t2 hq
        exact ih _ _ e
      · cases (Prod.mk.inj e).1
  obtain ⟨f1, f2⟩ := h.flush _ _ _ e2
  refine ⟨{ t1 with data := (w.flush t1.data).2 }, ?_, ?_⟩
  · rw [happ ops t t1 e1]
    show (match Traj.flush w t1 with | (.ok _, t1) => Traj.exec w [] t1 | (.error e, t1) => (.error e, t1)) = _
    have : Traj.flush w t1 = (.ok (), { t1 with data := (w.flush t1.data).2 }) := by unfold Traj.flush; rw [f1]
    rw [this]
    rfl
  · rw [← e3]; exact f2

end

/-! ### The lattice trajectory -/

section
variable {K : Type _}

/-- The lines of a frame. -/
def frameLines (f : Frame K) : List (Line K) :=
  [.time f.1, .step f.2.1, match f.2.2 with | .plain l => .plain l | .buckets l => .short (l.map (Traj.short []))]

/-- The frames in the buffers of a lattice trajectory. -/
def Traj.Lattice.pending (d : Lattice K) : List (Frame K) := d.times.zip (d.steps.zip d.types)

theorem writeFrames_ok (fs : List (Frame K)) (file : List (Line K)) (h : ∀ f ∈ fs, 2 ≤ f.2.2.length) :
    writeFrames fs file = (.ok (), file ++ fs.flatMap frameLines) := by
  induction fs generalizing file with
  | nil => simp [writeFrames]
  | cons f fs ih =>
    have hf := h f (by simp)
    have e : writeFrame f file = (.ok (), file ++ frameLines f) := by
      obtain ⟨t, k, l | l⟩ := f
      · have hf' : ¬ l.length < 2 := by simpa [PyTypes.length] using hf
        simp [writeFrame, frameLines, hf']
      · have hf' : ¬ l.length < 2 := by simpa [PyTypes.length] using hf
        simp [writeFrame, frameLines, hf']
    unfold writeFrames
    rw [e]
    simp only
    rw [ih _ (fun f hf => h f (by simp [hf]))]
    simp

/-- The buffers have the same length, the frames in them have two sites or more. -/
def Traj.Lattice.Rep (d : Lattice K) (x : List (Line K)) (fs : List (Frame K)) : Prop :=
  d.file = x ∧ d.times = fs.map (·.1) ∧ d.steps = fs.map (·.2.1) ∧ d.types = fs.map (·.2.2) ∧ ∀ f ∈ fs, 2 ≤ f.2.2.length

theorem zip_map_parts (fs : List (Frame K)) : (fs.map (·.1)).zip ((fs.map (·.2.1)).zip (fs.map (·.2.2))) = fs := by
  induction fs with
  | nil => rfl
  | cons f fs ih => simp only [List.map_cons, List.zip_cons_cons, ih]

theorem lattice_sound (master : Bool) (sizeof : PyTypes → Nat) (sizeofList : Nat → Nat) :
    Traj.Sound (latticeWriter (K := K) master sizeof sizeofList) (fun f => 2 ≤ f.2.2.length)
      (fun f => if master then frameLines f else []) Traj.Lattice.Rep := by
  constructor
  · rintro d x fs f ⟨h1, h2, h3, h4, h5⟩ hf
    refine ⟨h1, ?_, ?_, ?_, ?_⟩
    · simp [latticeWriter, h2]
    · simp [latticeWriter, h3]
    · simp [latticeWriter, h4]
    · intro g hg
      rcases List.mem_append.1 hg with hg | hg
      · exact h5 g hg
      · rw [List.mem_singleton.1 hg]; exact hf
  · rintro d x fs ⟨h1, h2, h3, h4, h5⟩
    have hp : d.times.zip (d.steps.zip d.types) = fs := by rw [h2, h3, h4]; exact zip_map_parts fs
    show (latticeFlush master d).1 = _ ∧ Traj.Lattice.Rep (latticeFlush master d).2 _ _
    unfold latticeFlush
    split
    · cases master with
      | true =>
        have hw : writeToFile true d = (.ok (), { d with file := d.file ++ fs.flatMap frameLines }) := by
          unfold writeToFile
          rw [if_pos rfl, hp]
          simp only [writeFrames_ok fs d.file h5]
        rw [hw]
        simp only
        refine ⟨trivial, ?_, rfl, rfl, rfl, by simp⟩
        simp [h1]
      | false =>
        have hw : writeToFile false d = (.ok (), d) := rfl
        rw [hw]
        simp only
        refine ⟨trivial, ?_, rfl, rfl, rfl, by simp⟩
        simp [h1]
    · rename_i hn
      have hnil : fs = [] := by
        by_contra hne
        apply hn
        have : 0 < fs.length := List.length_pos_iff.2 hne
        rw [h2, h3, h4]
        simpa using this
      subst hnil
      exact ⟨rfl, by simpa using h1, h2, h3, h4, by simp⟩

variable [Zero K] [Sub K] [LT K] [DecidableLT K]

/-- C45. Lattice trajectory: whatever the limits, the sizes of objects and the clock, after a final flush the file
of the master has the lines of every appended frame exactly once and in order, and the buffers are empty. -/
theorem C45_lattice (sizeof : PyTypes → Nat) (sizeofList : Nat → Nat) (maxSize : Nat) (maxTime : K)
    (ops : List (Op (Frame K) K)) (h : ∀ f ∈ appended ops, 2 ≤ f.2.2.length) :
    ∃ t, exec (latticeWriter true sizeof sizeofList) (ops ++ [.flush]) (newLattice maxSize maxTime) = (.ok (), t) ∧
      t.data.file = (appended ops).flatMap frameLines ∧ t.data.times = [] ∧ t.data.steps = [] ∧ t.data.types = [] := by
  obtain ⟨t, e1, e2, e3, e4, e5, -⟩ := (lattice_sound true sizeof sizeofList).exec_flush ops (newLattice maxSize maxTime) [] []
    ⟨rfl, rfl, rfl, rfl, by simp⟩ h
  exact ⟨t, e1, by simpa using e2, e3, e4, e5⟩

/-- C45. At any time the lines in the file and those of the frames in the buffers are together those of the frames
appended so far; so the file is always a beginning of what it will be. -/
theorem C45_lattice_any (sizeof : PyTypes → Nat) (sizeofList : Nat → Nat) (maxSize : Nat) (maxTime : K)
    (ops : List (Op (Frame K) K)) (h : ∀ f ∈ appended ops, 2 ≤ f.2.2.length) :
    ∃ t, exec (latticeWriter true sizeof sizeofList) ops (newLattice maxSize maxTime) = (.ok (), t) ∧
      t.data.file ++ t.data.pending.flatMap frameLines = (appended ops).flatMap frameLines := by
  obtain ⟨t, x, fs, e1, ⟨e2, e3, e4, e5, -⟩, e6⟩ := (lattice_sound true sizeof sizeofList).exec ops (newLattice maxSize maxTime) [] []
    ⟨rfl, rfl, rfl, rfl, by simp⟩ h
  refine ⟨t, e1, ?_⟩
  have : t.data.pending = fs := by
    unfold Traj.Lattice.pending
    rw [e3, e4, e5]; exact zip_map_parts fs
  rw [this, e2]
  simpa using e6

/-- C45. The buffer is bounded: after any calls it is empty, or its size as the trajectory computes it, that of the first
types in it for each of its frames and that of the list, is within the limit. -/
theorem C45_bounded (sizeof : PyTypes → Nat) (sizeofList : Nat → Nat) (maxSize : Nat) (maxTime : K)
    (ops : List (Op (Frame K) K)) (h : ∀ f ∈ appended ops, 2 ≤ f.2.2.length) :
    ∃ t, exec (latticeWriter true sizeof sizeofList) ops (newLattice maxSize maxTime) = (.ok (), t) ∧
      (t.data.types = [] ∨ ∃ y ys, t.data.types = y :: ys ∧
        sizeof y * t.data.types.length + sizeofList t.data.types.length ≤ maxSize) := by
  obtain ⟨t, x, fs, e1, ⟨-, -, -, e2, -⟩, e3⟩ := (lattice_sound true sizeof sizeofList).bounded ops (newLattice maxSize maxTime) [] []
    ⟨rfl, rfl, rfl, rfl, by simp⟩ h (.inl rfl)
  refine ⟨t, e1, ?_⟩
  cases hy : t.data.types with
  | nil => exact .inl rfl
  | cons y ys =>
    refine .inr ⟨y, ys, rfl, ?_⟩
    rcases e3 with rfl | e3
    · rw [hy] at e2; cases e2
    · simp only [latticeWriter, hy] at e3
      exact e3

/-- C45. Other ranks do not write. -/
theorem C45_lattice_other (sizeof : PyTypes → Nat) (sizeofList : Nat → Nat) (maxSize : Nat) (maxTime : K)
    (ops : List (Op (Frame K) K)) (h : ∀ f ∈ appended ops, 2 ≤ f.2.2.length) :
    ∃ t, exec (latticeWriter false sizeof sizeofList) ops (newLattice maxSize maxTime) = (.ok (), t) ∧ t.data.file = [] := by
  obtain ⟨t, x, fs, e1, ⟨e2, -⟩, e6⟩ := (lattice_sound false sizeof sizeofList).exec ops (newLattice maxSize maxTime) [] []
    ⟨rfl, rfl, rfl, rfl, by simp⟩ h
  refine ⟨t, e1, ?_⟩
  rw [e2]
  have := congrArg List.length e6
  simpa using this

/-- C45. The first frame is written at once, if the clock is beyond the limit; the frames after it wait for the limits. -/
theorem C45_lattice_first (sizeof : PyTypes → Nat) (sizeofList : Nat → Nat) (maxSize : Nat) (maxTime : K) (f : Frame K)
    (hf : 2 ≤ f.2.2.length) (now now2 : K) (h : maxTime < now - 0) :
    (append (latticeWriter true sizeof sizeofList) f now now2 (newLattice maxSize maxTime)).1 = .ok () ∧
    (append (latticeWriter true sizeof sizeofList) f now now2 (newLattice maxSize maxTime)).2.data = ⟨[], [], [], frameLines f⟩ ∧
    (append (latticeWriter true sizeof sizeofList) f now now2 (newLattice maxSize maxTime)).2.lastDump = now2 := by
  have key : latticeFlush true ((latticeWriter true sizeof sizeofList).store f (newLattice maxSize maxTime).data) =
      (.ok (), ⟨[], [], [], frameLines f⟩) := by
    obtain ⟨time, step, types⟩ := f
    cases types with
    | plain l =>
      have hf : ¬ l.length < 2 := Nat.not_lt.2 hf
      simp [latticeFlush, latticeWriter, newLattice, writeToFile, writeFrames, writeFrame, hf, frameLines]
    | buckets l =>
      have hf : ¬ l.length < 2 := Nat.not_lt.2 hf
      simp [latticeFlush, latticeWriter, newLattice, writeToFile, writeFrames, writeFrame, hf, frameLines]
  unfold Traj.append
  rw [if_pos (.inr h)]
  have : (latticeWriter true sizeof sizeofList).flush = latticeFlush (K := K) true := rfl
  rw [this, key]
  exact ⟨rfl, rfl, rfl⟩

/-- C45. With one site the first append, which always flushes because the clock is far beyond the limit, raises, and
the file has the time and the step of the frame but not its types. -/
theorem C45_one_site (sizeof : PyTypes → Nat) (sizeofList : Nat → Nat) (maxSize : Nat) (maxTime : K) (time : K) (step : Nat)
    (n : String) (now now2 : K) (h : maxTime < now - 0) :
    (append (latticeWriter true sizeof sizeofList) (time, step, .plain [n]) now now2 (newLattice maxSize maxTime)).1 =
      .error .indexError ∧
    (append (latticeWriter true sizeof sizeofList) (time, step, .plain [n]) now now2 (newLattice maxSize maxTime)).2.data.file =
      [.time time, .step step] := by
  unfold Traj.append
  rw [if_pos (.inr h)]
  exact ⟨rfl, rfl⟩

end

/-! ### The short format -/

theorem short_mem (l : List String) : ∀ (taken : List String) (k : Nat) (m : String),
    (k, m) ∈ Traj.short taken l ↔ m ∈ l ∧ m ∉ taken ∧ k = l.count m := by
  induction l with
  | nil => intro taken k m; simp [Traj.short]
  | cons n l ih =>
    intro taken k m
    unfold Traj.short
    by_cases hn : n ∈ taken
    · rw [if_pos hn, ih]
      constructor
      · rintro ⟨h1, h2, h3⟩
        have : n ≠ m := fun h => h2 (h ▸ hn)
        exact ⟨by simp [h1], h2, by rw [List.count_cons_of_ne this]; exact h3⟩
      · rintro ⟨h1, h2, h3⟩
        have : n ≠ m := fun h => h2 (h ▸ hn)
        rw [List.count_cons_of_ne this] at h3
        refine ⟨?_, h2, h3⟩
        rcases List.mem_cons.1 h1 with h | h
        · exact absurd h.symm this
        · exact h
    · rw [if_neg hn, List.mem_cons, ih]
      by_cases hnm : n = m
      · subst hnm
        simp only [List.count_cons_self, List.mem_append, or_true, not_true_eq_false, false_and, and_false,
          or_false, List.mem_cons, true_or, true_and, Prod.mk.injEq, and_true]
        constructor
        · intro h; exact ⟨hn, by omega⟩
        · rintro ⟨-, h⟩; omega
      · rw [List.count_cons_of_ne hnm]
        simp [Ne.symm hnm, Prod.ext_iff]

theorem short_nodup (l : List String) : ∀ taken, ((Traj.short taken l).map (·.2)).Nodup := by
  induction l with
  | nil => intro taken; simp [Traj.short]
  | cons n l ih =>
    intro taken
    unfold Traj.short
    split
    · exact ih _
    · rw [List.map_cons, List.nodup_cons]
      refine ⟨?_, ih _⟩
      rintro h
      obtain ⟨⟨k, m⟩, h1, rfl⟩ := List.mem_map.1 h
      have := ((short_mem l _ k m).1 h1).2.1
      simp at this

/-- C45. The format for buckets gives each kind at a site once, with its number. -/
theorem C45_short (l : List String) : ((Traj.short [] l).map (·.2)).Nodup ∧
    ∀ k m, (k, m) ∈ Traj.short [] l ↔ 0 < k ∧ l.count m = k := by
  refine ⟨short_nodup l [], fun k m => ?_⟩
  rw [short_mem]
  constructor
  · rintro ⟨h1, -, rfl⟩
    exact ⟨List.count_pos_iff.2 h1, rfl⟩
  · rintro ⟨h1, rfl⟩
    exact ⟨List.count_pos_iff.1 h1, by simp, rfl⟩

/-! ### The xyz trajectory -/

section
variable {K C : Type _}

/-- What is written for a frame. -/
def atomsBlock (f : Atoms K C) : Block K C :=
  ⟨f.step, f.types.length, f.time, (f.types.zip f.coords).zipIdx.map (fun r => (r.1.1, r.1.2, r.2))⟩

/-- The frames in the buffers. -/
def Traj.Xyz.Rep (d : Xyz K C) (x : List (Block K C)) (fs : List (Atoms K C)) : Prop :=
  d.file = x ∧ d.times = fs.map (·.time) ∧ d.steps = fs.map (·.step) ∧ d.types = fs.map (·.types) ∧
    d.coords = fs.map (·.coords) ∧ ∀ f ∈ fs, f.types.length = f.coords.length

theorem xyzRows_ok (ts : List String) (cs : List C) (h : ts.length = cs.length) :
    xyzRows ts cs = .ok ((ts.zip cs).zipIdx.map (fun r => (r.1.1, r.1.2, r.2))) := by
  unfold xyzRows
  rw [mapMM_ok_iff, List.forall₂_iff_get]
  refine ⟨by simp [h], fun i h1 h2 => ?_⟩
  have h1' : i < ts.length := by simpa using h1
  simp only [List.get_eq_getElem, List.getElem_range, List.getElem_map, List.getElem_zipIdx, List.getElem_zip, Nat.zero_add]
  rw [rd_of_lt h1', rd_of_lt (h ▸ h1')]
  rfl

theorem xyzBlocks_ok {d : Xyz K C} {is : List Nat} {bs : List (Block K C)} (h : mapMM (xyzBlock d) is = .ok bs)
    (file : List (Block K C)) : xyzBlocks d is file = (.ok (), file ++ bs) := by
  induction is generalizing bs file with
  | nil =>
    obtain rfl := Except.ok.inj h
    simp [xyzBlocks]
  | cons i is ih =>
    rw [mapMM_cons, bind_ok] at h
    obtain ⟨b, h1, h⟩ := h
    obtain ⟨bs', h2, h⟩ := bind_ok.1 h
    obtain rfl := Except.ok.inj h
    unfold xyzBlocks
    rw [h1]
    simp only
    rw [ih h2]
    simp

theorem xyz_sound (master : Bool) (size : Xyz K C → Nat) :
    Traj.Sound (xyzWriter (K := K) (C := C) master size) (fun f => f.types.length = f.coords.length)
      (fun f => if master then [atomsBlock f] else []) Traj.Xyz.Rep := by
  constructor
  · rintro d x fs f ⟨h1, h2, h3, h4, h5, h6⟩ hf
    refine ⟨h1, ?_, ?_, ?_, ?_, ?_⟩
    · simp [xyzWriter, h2]
    · simp [xyzWriter, h3]
    · simp [xyzWriter, h4]
    · simp [xyzWriter, h5]
    · intro g hg
      rcases List.mem_append.1 hg with hg | hg
      · exact h6 g hg
      · rw [List.mem_singleton.1 hg]; exact hf
  · rintro d x fs ⟨h1, h2, h3, h4, h5, h6⟩
    show (xyzFlush master d).1 = _ ∧ Traj.Xyz.Rep (xyzFlush master d).2 _ _
    unfold xyzFlush
    split
    · rename_i hn
      rw [h3, List.length_map] at hn
      have hnil : fs = [] := List.length_eq_zero_iff.1 (by omega)
      subst hnil
      exact ⟨rfl, by simpa using h1, h2, h3, h4, h5, by simp⟩
    · cases master with
      | true =>
        have hb : mapMM (xyzBlock d) (List.range d.steps.length) = .ok (fs.map atomsBlock) := by
          rw [mapMM_ok_iff, List.forall₂_iff_get]
          refine ⟨by simp [h3], fun i g1 g2 => ?_⟩
          have hi : i < fs.length := by simpa using g2
          simp only [List.get_eq_getElem, List.getElem_range, List.getElem_map]
          unfold xyzBlock
          rw [h2, h3, h4, h5, rd_of_lt (by simpa using hi), rd_of_lt (by simpa using hi), rd_of_lt (by simpa using hi),
            rd_of_lt (by simpa using hi)]
          simp only [ok_bind, List.getElem_map]
          rw [xyzRows_ok _ _ (h6 _ (List.getElem_mem hi))]
          rfl
        rw [if_pos rfl, xyzBlocks_ok hb]
        simp only
        refine ⟨trivial, ?_, rfl, rfl, rfl, rfl, by simp⟩
        simp [h1, List.map_eq_flatMap]
      | false =>
        rw [if_neg (by simp)]
        refine ⟨rfl, ?_, rfl, rfl, rfl, rfl, by simp⟩
        simp [h1]

variable [Zero K] [Sub K] [LT K] [DecidableLT K]

/-- C45. The xyz trajectory: after a final flush the file has one block for each appended frame, in order, with a row
for each atom id. -/
theorem C45_xyz (size : Xyz K C → Nat) (maxSize : Nat) (maxTime : K) (ops : List (Op (Atoms K C) K))
    (h : ∀ f ∈ appended ops, f.types.length = f.coords.length) :
    ∃ t, exec (xyzWriter true size) (ops ++ [.flush]) (newXyz maxSize maxTime) = (.ok (), t) ∧
      t.data.file = (appended ops).map atomsBlock ∧
      t.data.times = [] ∧ t.data.steps = [] ∧ t.data.types = [] ∧ t.data.coords = [] := by
  obtain ⟨t, e1, e2, e3, e4, e5, e6, -⟩ := (xyz_sound true size).exec_flush ops (newXyz maxSize maxTime) [] []
    ⟨rfl, rfl, rfl, rfl, rfl, by simp⟩ h
  exact ⟨t, e1, by simpa [List.map_eq_flatMap] using e2, e3, e4, e5, e6⟩

/-- C45. The first frame of the xyz trajectory is written at once, if the clock is beyond the limit. -/
theorem C45_xyz_first (size : Xyz K C → Nat) (maxSize : Nat) (maxTime : K) (f : Atoms K C) (hf : f.types.length = f.coords.length)
    (now now2 : K) (h : maxTime < now - 0) :
    (append (xyzWriter true size) f now now2 (newXyz maxSize maxTime)).1 = .ok () ∧
    (append (xyzWriter true size) f now now2 (newXyz maxSize maxTime)).2.data = ⟨[], [], [], [], [atomsBlock f]⟩ ∧
    (append (xyzWriter true size) f now now2 (newXyz maxSize maxTime)).2.lastDump = now2 := by
  have hs := (xyz_sound true size).store (newXyz maxSize maxTime).data [] [] f ⟨rfl, rfl, rfl, rfl, rfl, by simp⟩ hf
  obtain ⟨e1, e2, e3, e4, e5, e6, -⟩ := (xyz_sound true size).flush _ _ _ hs
  unfold Traj.append
  rw [if_pos (.inr h)]
  generalize (xyzWriter true size).flush ((xyzWriter true size).store f (newXyz maxSize maxTime).data) = r at *
  obtain ⟨r1, ts, cs, tm, st, file⟩ := r
  simp only at e1 e2 e3 e4 e5 e6
  subst e1
  simp only [e2, e3, e4, e5, e6]
  exact ⟨trivial, rfl, trivial⟩

/-- C45. At any time the file and the buffers of the xyz trajectory have the appended frames. -/
theorem C45_xyz_any (size : Xyz K C → Nat) (maxSize : Nat) (maxTime : K) (ops : List (Op (Atoms K C) K))
    (h : ∀ f ∈ appended ops, f.types.length = f.coords.length) :
    ∃ (t : Base (Xyz K C) K) (fs : List (Atoms K C)), exec (xyzWriter true size) ops (newXyz maxSize maxTime) = (.ok (), t) ∧
      t.data.times = fs.map (·.time) ∧ t.data.steps = fs.map (·.step) ∧ t.data.types = fs.map (·.types) ∧
      t.data.coords = fs.map (·.coords) ∧
      t.data.file ++ fs.map atomsBlock = (appended ops).map atomsBlock := by
  obtain ⟨t, x, fs, e1, ⟨e2, e3, e4, e5, e6, -⟩, e7⟩ := (xyz_sound true size).exec ops (newXyz maxSize maxTime) [] []
    ⟨rfl, rfl, rfl, rfl, rfl, by simp⟩ h
  exact ⟨t, fs, e1, e3, e4, e5, e6, by rw [e2]; simpa [List.map_eq_flatMap] using e7⟩

end

/-! ### Together with the run loop -/

section
variable {σ K : Type}

/-- What the calls of a run do to the trajectory. `view` gives the types of a state; `clock` gives the readings of
the clock in the appends. -/
def trajOps (view : σ → PyTypes) (clock : Nat → K × K) : Nat → List (Call σ K) → List (Op (Frame K) K)
  | _, [] => []
  | i, .frame k t s :: cs => .append (t, k, view s) (clock i).1 (clock i).2 :: trajOps view clock (i + 1) cs
  | i, .flush :: cs => .flush :: trajOps view clock i cs
  | i, _ :: cs => trajOps view clock i cs

theorem trajOps_appended (view : σ → PyTypes) (clock : Nat → K × K) (cs : List (Call σ K)) : ∀ i,
    appended (trajOps view clock i cs) = (cs.filterMap Call.frame?).map (fun f => (f.2.1, f.1, view f.2.2)) := by
  induction cs with
  | nil => intro i; rfl
  | cons c cs ih =>
    intro i
    cases c with
    | frame k t s =>
      simp only [trajOps, appended, ih]
      rfl
    | flush => simp only [trajOps, appended, ih]; rfl
    | _ => simp only [trajOps, ih]; rfl

theorem trajOps_append (view : σ → PyTypes) (clock : Nat → K × K) (cs ds : List (Call σ K)) : ∀ i, ∃ j,
    trajOps view clock i (cs ++ ds) = trajOps view clock i cs ++ trajOps view clock j ds := by
  induction cs with
  | nil => intro i; exact ⟨i, rfl⟩
  | cons c cs ih =>
    intro i
    cases c with
    | frame k t s =>
      obtain ⟨j, e⟩ := ih (i + 1)
      exact ⟨j, by simp [trajOps, e]⟩
    | flush =>
      obtain ⟨j, e⟩ := ih i
      exact ⟨j, by simp [trajOps, e]⟩
    | _ =>
      obtain ⟨j, e⟩ := ih i
      exact ⟨j, by simp [trajOps, e]⟩

theorem trajOps_finalize (view : σ → PyTypes) (clock : Nat → K × K) (l : List Nat) (i : Nat) :
    trajOps view clock i (l.map (fun a => (.finalize a : Call σ K))) = [] := by
  induction l with
  | nil => rfl
  | cons a l ih => simpa [trajOps] using ih

variable [Field K] [LinearOrder K]

/-- C45. However the loop ends, all frames of the run are in the file, if the preparation and the clean-up do not
raise. -/
theorem C45_run (B : Backend σ K) (o : Outside σ K) (c : PyControl K) (s : σ) (htr : o.trajectory = true)
    (hp : (prelude B o s []).1 = .ok ())
    (hc : ∀ log x, x = .flush ∨ (∃ a, x = .finalize a) → ∃ r, o.reply (log ++ [x]) = .ok r)
    (view : σ → PyTypes) (hview : ∀ x, 2 ≤ (view x).length) (clock : Nat → K × K)
    (sizeof : PyTypes → Nat) (sizeofList : Nat → Nat) (maxSize : Nat) (maxTime : K) :
    ∃ t, exec (latticeWriter true sizeof sizeofList) (trajOps view clock 0 (main B o c s []).2) (newLattice maxSize maxTime) =
        (.ok (), t) ∧
      t.data.file = ((main B o c s []).2.filterMap Call.frame?).flatMap (fun f => frameLines (f.2.1, f.1, view f.2.2)) := by
  obtain ⟨pre, h1, -, -⟩ := C43_clean_up_partial B o c s hp hc
  rw [if_pos htr] at h1
  obtain ⟨j, e1⟩ := trajOps_append view clock (pre ++ [.flush]) ((List.range o.analyses).map (fun a => .finalize a)) 0
  obtain ⟨j', e2⟩ := trajOps_append view clock pre [.flush] 0
  rw [trajOps_finalize, List.append_nil, e2] at e1
  have e3 : (main B o c s []).2.filterMap Call.frame? = pre.filterMap Call.frame? := by
    rw [h1, List.filterMap_append, List.filterMap_append, List.filterMap_cons_none rfl, List.filterMap_nil, List.append_nil]
    have : ((List.range o.analyses).map (fun a => (.finalize a : Call σ K))).filterMap Call.frame? = [] := by
      rw [List.filterMap_eq_nil_iff]
      intro x hx
      obtain ⟨a, -, rfl⟩ := List.mem_map.1 hx
      rfl
    rw [this, List.append_nil]
  rw [e3, h1, e1]
  obtain ⟨t, g1, g2, -⟩ := C45_lattice sizeof sizeofList maxSize maxTime (trajOps view clock 0 pre) (by
    intro f hf
    rw [trajOps_appended] at hf
    obtain ⟨x, -, rfl⟩ := List.mem_map.1 hf
    exact hview _)
  refine ⟨t, g1, ?_⟩
  rw [g2, trajOps_appended, List.flatMap_map]

/-- C45. A run that ends properly, with a frame every `d` steps: the file has the frames of the steps 0, `d`, 2`d`, … in
order. -/
theorem C45_schedule (B : Backend σ K) (o : Outside σ K) (c : PyControl K) (s s' : σ) (log : List (Call σ K)) (d : Nat)
    (htr : o.trajectory = true) (ht : c.dumpTime = none) (hd : c.dump = some d) (h : main B o c s [] = (.ok s', log))
    (view : σ → PyTypes) (hview : ∀ x, 2 ≤ (view x).length) (clock : Nat → K × K)
    (sizeof : PyTypes → Nat) (sizeofList : Nat → Nat) (maxSize : Nat) (maxTime : K) :
    ∃ t m st mid, History B s m st mid ∧ s' = st m ∧
      exec (latticeWriter true sizeof sizeofList) (trajOps view clock 0 log) (newLattice maxSize maxTime) = (.ok (), t) ∧
      t.data.file = (0 :: multiples d m).flatMap (fun k => frameLines (B.time (st k), k, view (st k))) := by
  obtain ⟨m, st, mid, -, h2, h3, -, h4, -⟩ := C42_schedule B o c s s' log h
  have h4 := h4 d ht hd
  rw [if_pos htr] at h4
  obtain ⟨-, l, body, -, -, rfl⟩ := main_ok h
  have hcl : closing o = [.flush] ++ (List.range o.analyses).map (fun a => .finalize a) := by
    unfold closing; rw [if_pos htr]
  obtain ⟨j, e1⟩ := trajOps_append view clock (opening B o s ++ body ++ [.flush]) ((List.range o.analyses).map (fun a => .finalize a)) 0
  obtain ⟨j', e2⟩ := trajOps_append view clock (opening B o s ++ body) [.flush] 0
  rw [trajOps_finalize, List.append_nil, e2] at e1
  rw [List.filterMap_append, closing_none _ _ rfl (fun _ => rfl), List.append_nil] at h4
  obtain ⟨t, g1, g2, -⟩ := C45_lattice sizeof sizeofList maxSize maxTime (trajOps view clock 0 (opening B o s ++ body)) (by
    intro f hf
    rw [trajOps_appended] at hf
    obtain ⟨x, -, rfl⟩ := List.mem_map.1 hf
    exact hview _)
  refine ⟨t, m, st, mid, h2, h3, ?_, ?_⟩
  · rw [hcl, ← List.append_assoc, e1]
    exact g1
  · rw [g2, trajOps_appended, h4, List.flatMap_map, List.flatMap_map]

end

/-- Three frames with a limit of two frames and a clock that passes the limit at the first append. -/
example : (exec (latticeWriter true (fun _ => 10) (fun _ => 0)) ([.append (0, 0, .plain ["A", "B"]) 100 101,
      .append (1, 1, .plain ["B", "A"]) 102 103, .append (2, 2, .plain ["B", "B"]) 104 105] : List (Op (Frame ℚ) ℚ))
      (newLattice 25 50)).2.data =
    ⟨[.plain ["B", "A"], .plain ["B", "B"]], [1, 2], [1, 2], [.time 0, .step 0, .plain ["A", "B"]]⟩ := by
  decide +kernel

example : (exec (latticeWriter true (fun _ => 10) (fun _ => 0)) ([.append (0, 0, .buckets [["A", "B", "A"], []]) 100 101,
      .append (1, 1, .buckets [["B", "A"], ["A"]]) 102 103, .flush] : List (Op (Frame ℚ) ℚ)) (newLattice 25 50)).2.data.file =
    [.time 0, .step 0, .short [[(2, "A"), (1, "B")], []], .time 1, .step 1, .short [[(1, "B"), (1, "A")], [(1, "A")]]] := by
  decide +kernel

example : (exec (xyzWriter true (fun _ => 0)) ([.append ⟨0, 0, ["A", "B"], [3, 4]⟩ 1 2, .append ⟨5, 1, ["A", "B"], [4, 3]⟩ 1 2, .flush] :
      List (Op (Atoms ℚ Nat) ℚ)) (newXyz 1 50)).2.data.file =
    [⟨0, 2, 0, [("A", 3, 0), ("B", 4, 1)]⟩, ⟨1, 2, 5, [("A", 4, 0), ("B", 3, 1)]⟩] := by
  decide +kernel

end KMC
