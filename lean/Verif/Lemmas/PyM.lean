import Verif.Model.Py
import Mathlib.Data.List.GetD
import Mathlib.Data.List.Forall2

/-! # Reasoning about `Py` computations -/

set_option autoImplicit false

namespace MPOpt

theorem py_bind_ok {α β : Type} (a : α) (f : α → Py β) : ((Except.ok a : Py α) >>= f) = f a := rfl

theorem py_bind_eq_ok {α β : Type} {x : Py α} {f : α → Py β} {b : β} :
    (x >>= f) = .ok b ↔ ∃ a, x = .ok a ∧ f a = .ok b := by
  cases x with
  | error e => constructor
               · intro h; cases h
               · rintro ⟨a, h, -⟩; cases h
  | ok a => constructor
            · intro h; exact ⟨a, rfl, h⟩
            · rintro ⟨a', h, h'⟩; cases h; exact h'

theorem py_pure_eq_ok {α : Type} {a b : α} : (pure a : Py α) = .ok b ↔ a = b := by
  constructor
  · intro h; cases h; rfl
  · rintro rfl; rfl

theorem pyAssert_eq_ok {b : Bool} : pyAssert b = .ok () ↔ b = true := by
  cases b <;> simp [pyAssert]

theorem pyAssert_eq_ok' {b : Bool} {u : Unit} : pyAssert b = .ok u ↔ b = true := by
  cases u; exact pyAssert_eq_ok

theorem pyIdx_eq_ok {α : Type} {l : List α} {i : Nat} {a : α} :
    pyIdx l i = .ok a ↔ l[i]? = some a := by
  unfold pyIdx
  cases h : l[i]? with
  | none => simp
  | some x => simp

theorem forM_eq_ok {α : Type} {l : List α} {f : α → Py Unit} :
    l.forM f = .ok () ↔ ∀ a ∈ l, f a = .ok () := by
  induction l with
  | nil => exact ⟨fun _ a ha => absurd ha (by simp), fun _ => rfl⟩
  | cons a l ih =>
    show (f a >>= fun _ => l.forM f) = _ ↔ _
    rw [py_bind_eq_ok]
    constructor
    · rintro ⟨⟨⟩, h1, h2⟩ b hb
      rcases List.mem_cons.1 hb with rfl | hb
      · exact h1
      · exact ih.1 h2 b hb
    · intro h
      exact ⟨(), h a (by simp), ih.2 fun b hb => h b (by simp [hb])⟩

theorem forM_eq_ok' {α : Type} {l : List α} {f : α → Py Unit} {u : Unit} :
    l.forM f = .ok u ↔ ∀ a ∈ l, f a = .ok () := by
  cases u; exact forM_eq_ok

theorem mapM_eq_ok {α β : Type} {l : List α} {f : α → Py β} {r : List β} :
    l.mapM f = .ok r ↔ List.Forall₂ (fun a b => f a = .ok b) l r := by
  induction l generalizing r with
  | nil =>
    rw [List.mapM_nil, py_pure_eq_ok]
    constructor
    · rintro rfl; exact .nil
    · intro h; cases h; rfl
  | cons a l ih =>
    rw [List.mapM_cons, py_bind_eq_ok]
    constructor
    · rintro ⟨b, hb, h⟩
      rw [py_bind_eq_ok] at h
      obtain ⟨bs, hbs, h⟩ := h
      rw [py_pure_eq_ok] at h
      subst h
      exact .cons hb (ih.1 hbs)
    · intro h
      cases h with
      | cons hb hbs =>
        refine ⟨_, hb, ?_⟩
        rw [py_bind_eq_ok]
        exact ⟨_, ih.2 hbs, rfl⟩

/-- Successful `mapM`: length and entries. -/
theorem mapM_length {α β : Type} {l : List α} {f : α → Py β} {r : List β}
    (h : l.mapM f = .ok r) : r.length = l.length := by
  exact (mapM_eq_ok.1 h).length_eq.symm

theorem mapM_getElem {α β : Type} {l : List α} {f : α → Py β} {r : List β}
    (h : l.mapM f = .ok r) (i : Nat) (hi : i < l.length) (hi' : i < r.length) :
    f l[i] = .ok r[i] := by
  have := (mapM_eq_ok.1 h)
  exact (List.forall₂_iff_get.1 this).2 i hi hi'

/-- A `mapM` all of whose steps succeed succeeds. -/
theorem mapM_exists {α β : Type} {l : List α} {f : α → Py β}
    (h : ∀ a ∈ l, ∃ b, f a = .ok b) : ∃ r, l.mapM f = .ok r := by
  induction l with
  | nil => exact ⟨[], rfl⟩
  | cons a l ih =>
    obtain ⟨b, hb⟩ := h a (by simp)
    obtain ⟨r, hr⟩ := ih fun x hx => h x (by simp [hx])
    refine ⟨b :: r, ?_⟩
    rw [List.mapM_cons, hb, hr]; rfl

end MPOpt
