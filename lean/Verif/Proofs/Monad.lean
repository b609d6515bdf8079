import Mathlib.Data.List.Forall2
import Verif.Code.Base

/-! # Reasoning about `M` and `R` -/

set_option linter.unnecessarySeqFocus false

namespace Verif

variable {α β γ : Type}

theorem M.pure_ok {a b : α} {n m : Nat} : M.pure a n = .ok (b, m) ↔ b = a ∧ m = n := by
  simp [M.pure, eq_comm]

theorem M.bind_ok {x : M α} {f : α → M β} {b : β} {n m : Nat} :
    M.bind x f n = .ok (b, m) ↔ ∃ a k, x n = .ok (a, k) ∧ f a k = .ok (b, m) := by
  unfold M.bind
  cases h : x n with
  | error e => simp
  | ok p =>
    obtain ⟨a, k⟩ := p
    constructor
    · intro h'; exact ⟨a, k, rfl, h'⟩
    · rintro ⟨a', k', h1, h2⟩; cases h1; exact h2

theorem M.bind_error {x : M α} {f : α → M β} {e : Panic} {n : Nat} :
    M.bind x f n = .error e ↔ x n = .error e ∨ ∃ a k, x n = .ok (a, k) ∧ f a k = .error e := by
  unfold M.bind
  cases h : x n with
  | error e => simp
  | ok p =>
    obtain ⟨a, k⟩ := p
    constructor
    · intro h'; exact Or.inr ⟨a, k, rfl, h'⟩
    · rintro (h1 | ⟨a', k', h1, h2⟩)
      · cases h1
      · cases h1; exact h2

theorem M.bind_ok_eq {x : M α} {f : α → M β} {a : α} {n k : Nat} (h : x n = .ok (a, k)) :
    M.bind x f n = f a k := by simp [M.bind, h]

theorem M.panic_ok {e : Panic} {b : α} {n m : Nat} : M.panic e n = .ok (b, m) ↔ False := by simp [M.panic]

theorem M.panic_error {e e' : Panic} {n : Nat} : (M.panic e : M α) n = .error e' ↔ e' = e := by
  simp [M.panic, eq_comm]

theorem M.pure_error {a : α} {e : Panic} {n : Nat} : M.pure a n = .error e ↔ False := by simp [M.pure]

theorem M.fresh_ok {n m i : Nat} : M.fresh n = .ok (i, m) ↔ i = n ∧ m = n + 1 := by
  simp [M.fresh, eq_comm]

theorem M.fresh_error {n : Nat} {e : Panic} : M.fresh n = .error e ↔ False := by simp [M.fresh]

theorem M.ofR_ok {r : R α} {b : α} {n m : Nat} : M.ofR r n = .ok (b, m) ↔ r = .ok b ∧ m = n := by
  cases r <;> simp [M.ofR, M.pure, M.panic, eq_comm]

theorem M.ofR_error {r : R α} {e : Panic} {n : Nat} : M.ofR r n = .error e ↔ r = .error e := by
  cases r <;> simp [M.ofR, M.pure, M.panic]

theorem HashOrder.iter_ok {H : HashOrder} {l r : List α} {n m : Nat} :
    H.iter l n = .ok (r, m) ↔ r = H.order n α l ∧ m = n + 1 := by
  simp only [HashOrder.iter, M.bind_ok, M.fresh_ok, M.pure_ok]
  constructor
  · rintro ⟨a, k, ⟨rfl, rfl⟩, rfl, rfl⟩; exact ⟨rfl, rfl⟩
  · rintro ⟨rfl, rfl⟩; exact ⟨_, _, ⟨rfl, rfl⟩, rfl, rfl⟩

theorem HashOrder.iter_perm {H : HashOrder} {l r : List α} {n m : Nat} (h : H.iter l n = .ok (r, m)) : r.Perm l := by
  rw [HashOrder.iter_ok] at h
  rw [h.1]; exact H.perm _ _ _

theorem HashOrder.iter_error {H : HashOrder} {l : List α} {n : Nat} {e : Panic} : H.iter l n = .error e ↔ False := by
  simp [HashOrder.iter, M.bind, M.fresh, M.pure]

/-- The hash order that iterates in list order (for examples). -/
def HashOrder.listOrder : HashOrder := ⟨fun _ _ l => l, fun _ _ l => List.Perm.refl l⟩

/-- The hash order that iterates backwards (for examples). -/
def HashOrder.revOrder : HashOrder := ⟨fun _ _ l => l.reverse, fun _ _ l => List.reverse_perm l⟩

theorem M.mapL_ok_forall {f : α → M β} {P : α → β → Prop} {as : List α} {bs : List β} {n m : Nat}
    (h : M.mapL f as n = .ok (bs, m)) (hf : ∀ a ∈ as, ∀ b n m, f a n = .ok (b, m) → P a b) :
    List.Forall₂ P as bs := by
  induction as generalizing bs n m with
  | nil => simp only [M.mapL, M.pure_ok] at h; rw [h.1]; exact .nil
  | cons a as ih =>
    simp only [M.mapL, M.bind_ok, M.pure_ok] at h
    obtain ⟨b, k, hb, bs', k', hbs, rfl, rfl⟩ := h
    exact .cons (hf a (by simp) _ _ _ hb) (ih hbs fun a ha => hf a (by simp [ha]))

theorem foldR_append {f : β → α → R β} {b : β} {l1 l2 : List α} :
    foldR f b (l1 ++ l2) = (match foldR f b l1 with | .ok b' => foldR f b' l2 | .error e => .error e) := by
  induction l1 generalizing b with
  | nil => simp [foldR]
  | cons a l1 ih =>
    simp only [List.cons_append, foldR]
    cases f b a <;> simp [ih]

theorem foldR_cons_ok {f : β → α → R β} {b c : β} {a : α} {l : List α} :
    foldR f b (a :: l) = .ok c ↔ ∃ b', f b a = .ok b' ∧ foldR f b' l = .ok c := by
  simp only [foldR]; cases f b a <;> simp

theorem idx_ok {v : List α} {i : Nat} {a : α} : idx v i = .ok a ↔ v[i]? = some a := by
  unfold idx; cases h : v[i]? <;> simp

theorem idx_eq_ok {v : List α} {i : Nat} (h : i < v.length) : idx v i = .ok v[i] := by
  simp [idx, h]

theorem idx_error {v : List α} {i : Nat} {e : Panic} : idx v i = .error e ↔ v.length ≤ i ∧ e = .index := by
  unfold idx
  cases h : v[i]? with
  | none => simp only [List.getElem?_eq_none_iff] at h; simp [h, eq_comm]
  | some a => obtain ⟨h, _⟩ := List.getElem?_eq_some_iff.1 h; simp; intro; omega

theorem setIdx_ok {v w : List α} {i : Nat} {a : α} : setIdx v i a = .ok w ↔ i < v.length ∧ w = v.set i a := by
  unfold setIdx; split <;> simp_all [eq_comm] <;> omega

theorem setIdx_error {v : List α} {i : Nat} {a : α} {e : Panic} :
    setIdx v i a = .error e ↔ v.length ≤ i ∧ e = .index := by
  unfold setIdx; split <;> simp_all [eq_comm] <;> omega

end Verif
