import Verif.Model.Basic

/-!
# Inversion lemmas for the error monad and the checked vector operations
-/

namespace KMC

theorem bind_ok {α β : Type _} {x : M α} {f : α → M β} {b : β} :
    (x >>= f) = .ok b ↔ ∃ a, x = .ok a ∧ f a = .ok b := by
  cases x with
  | error e => simp [bind, Except.bind]
  | ok a => simp [bind, Except.bind]

@[simp] theorem ok_bind {α β : Type _} (a : α) (f : α → M β) : ((.ok a : M α) >>= f) = f a := rfl

@[simp] theorem error_bind {α β : Type _} (e : Fault) (f : α → M β) :
    ((.error e : M α) >>= f) = .error e := rfl

@[simp] theorem pure_ok {α : Type _} (a : α) : (pure a : M α) = .ok a := rfl

theorem rd_ok {α : Type _} {xs : List α} {i : Nat} {a : α} : rd xs i = .ok a ↔ xs[i]? = some a := by
  unfold rd; split <;> simp_all

theorem rd_of_getElem? {α : Type _} {xs : List α} {i : Nat} {a : α} (h : xs[i]? = some a) :
    rd xs i = .ok a := rd_ok.2 h

theorem rd_of_lt {α : Type _} {xs : List α} {i : Nat} (h : i < xs.length) :
    rd xs i = .ok xs[i] := rd_ok.2 (List.getElem?_eq_getElem h)

theorem wr_ok {α : Type _} {xs ys : List α} {i : Nat} {v : α} :
    wr xs i v = .ok ys ↔ i < xs.length ∧ xs.set i v = ys := by
  unfold wr; split <;> simp_all

theorem wr_of_lt {α : Type _} {xs : List α} {i : Nat} {v : α} (h : i < xs.length) :
    wr xs i v = .ok (xs.set i v) := wr_ok.2 ⟨h, rfl⟩

section loop
variable {σ α β : Type _}

@[simp] theorem loopM_nil (f : σ → α → M σ) (s : σ) : loopM f [] s = .ok s := rfl

theorem loopM_cons (f : σ → α → M σ) (x : α) (xs : List α) (s : σ) :
    loopM f (x :: xs) s = (f s x >>= loopM f xs) := by
  show (match f s x with | .ok s' => loopM f xs s' | .error e => .error e) = _
  cases f s x <;> rfl

theorem loopM_append (f : σ → α → M σ) (xs ys : List α) (s : σ) :
    loopM f (xs ++ ys) s = (loopM f xs s >>= loopM f ys) := by
  induction xs generalizing s with
  | nil => rfl
  | cons x xs ih =>
    rw [List.cons_append, loopM_cons, loopM_cons]
    cases h : f s x with
    | error e => rfl
    | ok a => simp [ih]

/-- Invariant rule for loops. -/
theorem loopM_inv (P : σ → Prop) (f : σ → α → M σ) (xs : List α) (s s' : σ)
    (h0 : P s) (hstep : ∀ a b x, x ∈ xs → P a → f a x = .ok b → P b)
    (h : loopM f xs s = .ok s') : P s' := by
  induction xs generalizing s with
  | nil => simp at h; exact h ▸ h0
  | cons x xs ih =>
    rw [loopM_cons, bind_ok] at h
    obtain ⟨a, ha, h⟩ := h
    exact ih a (hstep s a x (by simp) h0 ha)
      (fun a b y hy => hstep a b y (List.mem_cons_of_mem _ hy)) h

@[simp] theorem mapMM_nil (f : α → M β) : mapMM f [] = .ok [] := rfl

theorem mapMM_cons (f : α → M β) (x : α) (xs : List α) :
    mapMM f (x :: xs) = (f x >>= fun y => mapMM f xs >>= fun ys => .ok (y :: ys)) := by
  conv_lhs => unfold mapMM
  cases f x with
  | error e => rfl
  | ok y => cases mapMM f xs <;> rfl

theorem mapMM_append (f : α → M β) (xs ys : List α) :
    mapMM f (xs ++ ys) = (mapMM f xs >>= fun a => mapMM f ys >>= fun b => .ok (a ++ b)) := by
  induction xs with
  | nil => simp; cases mapMM f ys <;> rfl
  | cons x xs ih =>
    rw [List.cons_append, mapMM_cons, mapMM_cons, ih]
    cases f x with
    | error e => rfl
    | ok y =>
      cases mapMM f xs with
      | error e => rfl
      | ok a => cases mapMM f ys <;> rfl

theorem mapMM_ok_iff {f : α → M β} {xs : List α} {ys : List β} :
    mapMM f xs = .ok ys ↔ List.Forall₂ (fun x y => f x = .ok y) xs ys := by
  induction xs generalizing ys with
  | nil => simp [eq_comm]
  | cons x xs ih =>
    rw [mapMM_cons, bind_ok]
    constructor
    · rintro ⟨y, hy, h⟩
      rw [bind_ok] at h
      obtain ⟨ys', h1, h2⟩ := h
      simp only [Except.ok.injEq] at h2
      subst h2
      exact List.Forall₂.cons hy (ih.1 h1)
    · intro h
      cases h with
      | cons hy h => exact ⟨_, hy, bind_ok.2 ⟨_, ih.2 h, rfl⟩⟩

theorem mapMM_eq_map {f : α → M β} {g : α → β} {xs : List α} (h : ∀ x ∈ xs, f x = .ok (g x)) :
    mapMM f xs = .ok (xs.map g) := by
  rw [mapMM_ok_iff]
  induction xs with
  | nil => simp
  | cons x xs ih =>
    simp only [List.map_cons, List.forall₂_cons]
    exact ⟨h x (by simp), ih fun y hy => h y (List.mem_cons_of_mem _ hy)⟩

theorem mapMM_congr {f g : α → M β} {xs : List α} (h : ∀ x ∈ xs, f x = g x) :
    mapMM f xs = mapMM g xs := by
  induction xs with
  | nil => rfl
  | cons x xs ih =>
    rw [mapMM_cons, mapMM_cons, h x (by simp), ih fun y hy => h y (List.mem_cons_of_mem _ hy)]

theorem mapMM_length {f : α → M β} {xs : List α} {ys : List β} (h : mapMM f xs = .ok ys) :
    ys.length = xs.length := (mapMM_ok_iff.1 h).length_eq.symm

theorem mapMM_getElem? {f : α → M β} {xs : List α} {ys : List β} (h : mapMM f xs = .ok ys)
    {i : Nat} {x : α} (hx : xs[i]? = some x) : ∃ y, ys[i]? = some y ∧ f x = .ok y := by
  have h' := mapMM_ok_iff.1 h
  obtain ⟨hi, rfl⟩ := List.getElem?_eq_some_iff.1 hx
  have hi' : i < ys.length := by rw [mapMM_length h]; exact hi
  refine ⟨ys[i], List.getElem?_eq_getElem hi', ?_⟩
  exact (List.forall₂_iff_get.1 h').2 i hi hi'

theorem mapMM_getElem?' {f : α → M β} {xs : List α} {ys : List β} (h : mapMM f xs = .ok ys)
    {i : Nat} {y : β} (hy : ys[i]? = some y) : ∃ x, xs[i]? = some x ∧ f x = .ok y := by
  have h' := mapMM_ok_iff.1 h
  obtain ⟨hi, rfl⟩ := List.getElem?_eq_some_iff.1 hy
  have hi' : i < xs.length := by rw [← mapMM_length h]; exact hi
  refine ⟨xs[i], List.getElem?_eq_getElem hi', ?_⟩
  exact (List.forall₂_iff_get.1 h').2 i hi' hi

/-- Totality: every element can be evaluated. -/
theorem mapMM_isOk {f : α → M β} {xs : List α} (h : ∀ x ∈ xs, ∃ y, f x = .ok y) :
    ∃ ys, mapMM f xs = .ok ys := by
  induction xs with
  | nil => exact ⟨[], rfl⟩
  | cons x xs ih =>
    obtain ⟨y, hy⟩ := h x (by simp)
    obtain ⟨ys, hys⟩ := ih fun z hz => h z (List.mem_cons_of_mem _ hz)
    exact ⟨y :: ys, by rw [mapMM_cons, hy, hys]; rfl⟩

/-- Evaluating a list of lists and joining is evaluating the joined list. -/
theorem mapMM_flatten (f : α → M β) (ls : List (List α)) :
    mapMM f ls.flatten = (mapMM (mapMM f) ls >>= fun r => .ok r.flatten) := by
  induction ls with
  | nil => rfl
  | cons l ls ih =>
    rw [List.flatten_cons, mapMM_append, mapMM_cons, ih]
    cases mapMM f l with
    | error e => rfl
    | ok a => cases mapMM (mapMM f) ls <;> rfl

theorem mapMM_map {γ : Type _} (f : β → M γ) (g : α → β) (xs : List α) :
    mapMM f (xs.map g) = mapMM (fun x => f (g x)) xs := by
  induction xs with
  | nil => rfl
  | cons x xs ih => rw [List.map_cons, mapMM_cons, mapMM_cons, ih]

/-- Reading all positions in order reads the list. -/
theorem mapMM_rd_range {γ : Type _} (g : α → M γ) (cs : List α) :
    mapMM (fun r => rd cs r >>= g) (List.range cs.length) = mapMM g cs := by
  induction cs with
  | nil => rfl
  | cons c cs ih =>
    rw [List.length_cons, List.range_succ_eq_map, mapMM_cons, mapMM_cons, mapMM_map]
    have : (fun x => rd (c :: cs) (Nat.succ x) >>= g) = fun r => rd cs r >>= g := by
      funext x; rfl
    rw [this, ih]; rfl

end loop
end KMC
