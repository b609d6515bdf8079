import Verif.Spec.PathCount
import Verif.Proofs.Panics
import Verif.Proofs.Reach

/-! # Number of paths, and when differentiation panics -/

set_option linter.unusedSectionVars false
set_option linter.unusedSimpArgs false

namespace Verif

variable {F : Type}

theorem count_cons_map (x a : Node F) (ps : List (List (Node F))) (h : ∀ p ∈ ps, p ≠ []) :
    ((ps.map (a :: ·)).filter (endsAt x)).length = (ps.filter (endsAt x)).length := by
  induction ps with
  | nil => rfl
  | cons p ps ih =>
    have h1 := ih fun q hq => h q (by simp [hq])
    simp only [List.map_cons, List.filter_cons, endsAt_cons (h p (by simp))]
    split <;> simp [h1]

theorem dfsL_ne_nil {as : List (Node F)} {p : List (Node F)} (h : p ∈ dfs.dfsL as) : p ≠ [] := by
  rw [mem_dfsL] at h
  obtain ⟨a, -, h⟩ := h
  exact dfs_ne_nil h

/-- The search finds one path for each place. -/
theorem dfs_count (x : Node F) (e : Node F) : ((dfs e).filter (endsAt x)).length = occurrences x e := by
  induction e using Node.ind with
  | const i v => rfl
  | var i s k => simp only [dfs, occurrences, List.filter_cons, List.filter_nil, endsAt, List.getLast?_singleton]; split <;> simp_all
  | add i args ih =>
    simp only [dfs, occurrences]
    rw [count_cons_map _ _ _ fun p hp => dfsL_ne_nil hp]
    clear i
    induction args with
    | nil => rfl
    | cons a as ih2 =>
      simp only [dfs.dfsL, occurrences.occs, List.filter_append, List.length_append]
      rw [ih a (by simp), ih2 fun b hb => ih b (by simp [hb])]; omega
  | cos i a ih => simp only [dfs, occurrences]; rw [count_cons_map _ _ _ fun p hp => dfs_ne_nil hp, ih]
  | sin i a ih => simp only [dfs, occurrences]; rw [count_cons_map _ _ _ fun p hp => dfs_ne_nil hp, ih]
  | mul i a b iha ihb =>
    simp only [dfs, occurrences]
    rw [count_cons_map, List.filter_append, List.length_append, iha, ihb]
    · omega
    · intro p hp; simp only [List.mem_append] at hp; exact hp.elim dfs_ne_nil dfs_ne_nil
  | div i a b iha ihb =>
    simp only [dfs, occurrences]
    rw [count_cons_map, List.filter_append, List.length_append, iha, ihb]
    · omega
    · intro p hp; simp only [List.mem_append] at hp; exact hp.elim dfs_ne_nil dfs_ne_nil

theorem occurrences_pos {x e : Node F} {p : List (Node F)} (hp : p ∈ dfs e) (hx : endsAt x p = true) : 0 < occurrences x e := by
  rw [← dfs_count]
  exact List.length_pos_of_mem (List.mem_filter.2 ⟨hp, hx⟩)

/-! ### Kinds of steps -/

/-- The factor for a step from this node to a non-constant argument is a number. -/
def Node.plain : Node F → Bool
  | .add .. => true
  | .mul _ a b => a.isConstant || b.isConstant
  | .div _ _ b => b.isConstant
  | _ => false

/-- All steps of the path are such. -/
def plainPath : List (Node F) → Bool
  | a :: b :: rest => a.plain && plainPath (b :: rest)
  | _ => true

theorem dfs_place (x e : Node F) : ∀ p ∈ dfs e, endsAt x p = true →
    (plainPath p = true → LinearPlace x e) ∧ (plainPath p = false → NonlinearPlace x e) := by
  have hcons : ∀ {a t : Node F} {q : List (Node F)}, q ∈ dfs t → plainPath (a :: q) = (a.plain && plainPath q) := by
    intro a t q hq
    obtain ⟨r, rfl⟩ := dfs_head hq
    rfl
  have hconst : ∀ {a : Node F} {q : List (Node F)}, q ∈ dfs a → a.isConstant = false := by
    intro a q hq; cases a <;> simp_all [dfs, Node.isConstant]
  induction e using Node.ind with
  | const i v => intro p hp; simp [dfs] at hp
  | var i s k =>
    intro p hp hx
    simp only [dfs, List.mem_singleton] at hp; subst hp
    exact ⟨fun _ => .here hx, fun h => by simp [plainPath] at h⟩
  | add i args ih =>
    intro p hp hx
    simp only [dfs, List.mem_map, mem_dfsL] at hp
    obtain ⟨q, ⟨a, ha, hq⟩, rfl⟩ := hp
    rw [endsAt_cons (dfs_ne_nil hq)] at hx
    have := ih a ha q hq hx
    rw [hcons hq]
    simp only [Node.plain, Bool.true_and]
    exact ⟨fun h => .add ha (this.1 h), fun h => .inAdd ha (this.2 h)⟩
  | cos i a ih =>
    intro p hp hx
    simp only [dfs, List.mem_map] at hp
    obtain ⟨q, hq, rfl⟩ := hp
    rw [endsAt_cons (dfs_ne_nil hq)] at hx
    rw [hcons hq]
    exact ⟨fun h => by simp [Node.plain] at h, fun _ => .cos (occurrences_pos hq hx)⟩
  | sin i a ih =>
    intro p hp hx
    simp only [dfs, List.mem_map] at hp
    obtain ⟨q, hq, rfl⟩ := hp
    rw [endsAt_cons (dfs_ne_nil hq)] at hx
    rw [hcons hq]
    exact ⟨fun h => by simp [Node.plain] at h, fun _ => .sin (occurrences_pos hq hx)⟩
  | mul i a b iha ihb =>
    intro p hp hx
    simp only [dfs, List.mem_map, List.mem_append] at hp
    obtain ⟨q, hq | hq, rfl⟩ := hp
    · rw [endsAt_cons (dfs_ne_nil hq)] at hx
      rw [hcons hq]
      simp only [Node.plain, hconst hq, Bool.or_false]
      have := ihb q hq hx
      cases hc : a.isConstant
      · exact ⟨fun h => by simp at h, fun _ => .mulRight hc (occurrences_pos hq hx)⟩
      · exact ⟨fun h => .mulRight hc (this.1 (by simpa using h)), fun h => .inRight (this.2 (by simpa using h))⟩
    · rw [endsAt_cons (dfs_ne_nil hq)] at hx
      rw [hcons hq]
      simp only [Node.plain, hconst hq, Bool.false_or]
      have := iha q hq hx
      cases hc : b.isConstant
      · exact ⟨fun h => by simp at h, fun _ => .mulLeft hc (occurrences_pos hq hx)⟩
      · exact ⟨fun h => .mulLeft hc (this.1 (by simpa using h)), fun h => .inLeft (this.2 (by simpa using h))⟩
  | div i a b iha ihb =>
    intro p hp hx
    simp only [dfs, List.mem_map, List.mem_append] at hp
    obtain ⟨q, hq | hq, rfl⟩ := hp
    · rw [endsAt_cons (dfs_ne_nil hq)] at hx
      rw [hcons hq]
      simp only [Node.plain, hconst hq, Bool.false_and]
      exact ⟨fun h => by simp at h, fun _ => .divisor (occurrences_pos hq hx)⟩
    · rw [endsAt_cons (dfs_ne_nil hq)] at hx
      rw [hcons hq]
      simp only [Node.plain]
      have := iha q hq hx
      cases hc : b.isConstant
      · exact ⟨fun h => by simp at h, fun _ => .dividend hc (occurrences_pos hq hx)⟩
      · exact ⟨fun h => .div hc (this.1 (by simpa using h)), fun h => .inDividend (this.2 (by simpa using h))⟩

variable [FloatOps F]

/-! ### Products along a path -/

/-- Not a constant, or the constant zero as the code writes it. -/
def NZ (e : Node F) : Prop := e.isConstant = false ∨ ∃ i, e = .const i zero

theorem const_partialN {a b r : Node F} {n m : Nat} (hp : a.plain = true) (hb : b ∈ a.arguments) (hc : b.isConstant = false)
    (h : partialN a b n = .ok (r, m)) : r.isConstant = true := by
  have hz : ∀ {v : F}, newConst v n = .ok (r, m) → r.isConstant = true := by
    intro v h; rw [newConst_ok] at h; rw [h.1]; rfl
  cases a <;> simp only [Node.plain, Bool.false_eq_true] at hp
  case add i args => exact hz h
  case mul i a d =>
    simp only [Node.arguments, List.mem_cons, List.not_mem_nil, or_false] at hb
    simp only [partialN] at h
    rcases hb with rfl | rfl
    · simp only [hc, Bool.false_or] at hp
      rw [if_pos (ptrEq_refl b), M.pure_ok] at h
      rw [h.1, hp]
    · simp only [hc, Bool.or_false] at hp
      rw [if_neg (by rw [ptrEq_false_of_const (by rw [hp, hc]; simp)]; simp), if_pos (ptrEq_refl b), M.pure_ok] at h
      rw [h.1, hp]
  case div i a d =>
    simp only [Node.arguments, List.mem_cons, List.not_mem_nil, or_false] at hb
    simp only [partialN] at h
    rcases hb with rfl | rfl
    · rw [if_pos (ptrEq_refl b)] at h
      unfold sDiv at h
      split at h
      · simp [M.panic_ok] at h
      · split at h
        · exact hz h
        · split at h
          · exact hz h
          · exact hz h
    · rw [hp] at hc; cases hc

theorem const_mulN {a b r : Node F} {n m : Nat} (ha : a.isConstant = true) (hb : b.isConstant = true)
    (h : mulN a b n = .ok (r, m)) : r.isConstant = true := by
  cases a <;> simp [Node.isConstant] at ha
  cases b <;> simp [Node.isConstant] at hb
  simp only [mulN, mulCL] at h
  split at h
  · rw [newConst_ok] at h; rw [h.1]; rfl
  · split at h
    · rw [M.pure_ok] at h; rw [h.1]; rfl
    · split at h
      · rw [M.pure_ok] at h; rw [h.1]; rfl
      · rw [newConst_ok] at h; rw [h.1]; rfl

theorem const_pathProd {path : List (Node F)} (hp : ArgPath path) (hpl : plainPath path = true) :
    ∀ {n m : Nat} {prod r : Node F}, prod.isConstant = true → pathProd prod path n = .ok (r, m) → r.isConstant = true := by
  induction path with
  | nil => intro n m prod r hc h; simp only [pathProd, M.pure_ok] at h; rw [h.1]; exact hc
  | cons a path ih =>
    intro n m prod r hc h
    cases path with
    | nil => simp only [pathProd, M.pure_ok] at h; rw [h.1]; exact hc
    | cons b path =>
      obtain ⟨hb, hbc, hrest⟩ := hp
      simp only [plainPath, Bool.and_eq_true] at hpl
      simp only [pathProd, M.bind_ok] at h
      obtain ⟨p, k1, h1, q, k2, h2, h3⟩ := h
      exact ih hrest hpl.2 (const_mulN hc (const_partialN hpl.1 hb hbc h1) h2) h3

section
variable (h0 : ((zero : F) ==. zero) = true)
include h0

theorem nz_mulCL {i : Nat} {c : F} {b r : Node F} {n m : Nat} (hb : c = zero ∨ NZ b) (h : mulCL i c b n = .ok (r, m)) : NZ r := by
  have hz : newConst zero n = .ok (r, m) → NZ r := by
    intro h; rw [newConst_ok] at h; exact .inr ⟨_, h.1⟩
  cases b
  case const j v =>
    have : c = zero ∨ v = zero := by
      rcases hb with hb | hb | ⟨_, hb⟩
      · exact .inl hb
      · simp [Node.isConstant] at hb
      · cases hb; exact .inr rfl
    simp only [mulCL] at h
    rw [if_pos (by rcases this with rfl | rfl <;> simp [h0])] at h
    exact hz h
  case add j args =>
    simp only [mulCL] at h
    split at h
    · exact hz h
    · split at h
      · rw [M.pure_ok] at h; rw [h.1]; exact .inl rfl
      · rw [M.bind_ok] at h
        obtain ⟨_, _, _, h⟩ := h
        rw [newAdd_ok] at h
        left; rw [h.2.1]; rfl
  all_goals
    simp only [mulCL] at h
    split at h
    · exact hz h
    · split at h
      · rw [M.pure_ok] at h; rw [h.1]; exact .inl rfl
      · rw [newMul_eq] at h; cases h; exact .inl rfl

theorem nz_mulCR {i : Nat} {c : F} {b r : Node F} {n m : Nat} (hb : c = zero ∨ NZ b) (h : mulCR i c b n = .ok (r, m)) : NZ r := by
  have hz : newConst zero n = .ok (r, m) → NZ r := by
    intro h; rw [newConst_ok] at h; exact .inr ⟨_, h.1⟩
  cases b
  case const j v =>
    have : c = zero ∨ v = zero := by
      rcases hb with hb | hb | ⟨_, hb⟩
      · exact .inl hb
      · simp [Node.isConstant] at hb
      · cases hb; exact .inr rfl
    simp only [mulCR] at h
    rw [if_pos (by rcases this with rfl | rfl <;> simp [h0])] at h
    exact hz h
  case add j args =>
    simp only [mulCR] at h
    split at h
    · exact hz h
    · split at h
      · rw [M.pure_ok] at h; rw [h.1]; exact .inl rfl
      · rw [M.bind_ok] at h
        obtain ⟨_, _, _, h⟩ := h
        rw [newAdd_ok] at h
        left; rw [h.2.1]; rfl
  all_goals
    simp only [mulCR] at h
    split at h
    · exact hz h
    · split at h
      · rw [M.pure_ok] at h; rw [h.1]; exact .inl rfl
      · rw [newMul_eq] at h; cases h; exact .inl rfl

theorem nz_mulN {a b r : Node F} {n m : Nat} (hab : NZ a ∨ NZ b) (h : mulN a b n = .ok (r, m)) : NZ r := by
  rcases mulN_cases a b with ⟨i, c, rfl, he⟩ | ⟨j, c, rfl, he⟩ | ⟨hac, hbc, he⟩ <;> rw [he] at h
  · refine nz_mulCL h0 ?_ h
    rcases hab with (h' | ⟨_, h'⟩) | h'
    · simp [Node.isConstant] at h'
    · cases h'; exact .inl rfl
    · exact .inr h'
  · refine nz_mulCR h0 ?_ h
    rcases hab with h' | (h' | ⟨_, h'⟩)
    · exact .inr h'
    · simp [Node.isConstant] at h'
    · cases h'; exact .inl rfl
  · rw [newMul_eq] at h; cases h; exact .inl rfl

theorem nz_negN {a r : Node F} {n m : Nat} (ha : a.isConstant = false) (h : negN a n = .ok (r, m)) : NZ r := by
  have hz : newConst zero n = .ok (r, m) → NZ r := by
    intro h; rw [newConst_ok] at h; exact .inr ⟨_, h.1⟩
  rcases negN_cases a with ⟨i, v, rfl, he⟩ | ⟨hc, he⟩ <;> rw [he] at h
  · simp [Node.isConstant] at ha
  · cases a
    case const => simp [Node.isConstant] at ha
    case add j args =>
      simp only [sMul] at h
      split at h
      · exact hz h
      · split at h
        · rw [M.pure_ok] at h; rw [h.1]; exact .inl rfl
        · rw [M.bind_ok] at h
          obtain ⟨_, _, _, h⟩ := h
          rw [newAdd_ok] at h
          left; rw [h.2.1]; rfl
    all_goals
      simp only [sMul] at h
      split at h
      · exact hz h
      · split at h
        · rw [M.pure_ok] at h; rw [h.1]; exact .inl rfl
        · rw [M.bind_ok] at h
          obtain ⟨_, _, _, h⟩ := h
          rw [newMul_eq] at h; cases h; exact .inl rfl

theorem nz_partialN {a b r : Node F} {n m : Nat} (hp : a.plain = false) (hb : b ∈ a.arguments) (hc : b.isConstant = false)
    (h : partialN a b n = .ok (r, m)) : NZ r := by
  have hz : ∀ {k : Nat}, newConst zero k = .ok (r, m) → NZ r := by
    intro k h; rw [newConst_ok] at h; exact .inr ⟨_, h.1⟩
  cases a <;> simp only [Node.arguments, List.mem_cons, List.not_mem_nil, or_false] at hb
  case add i args => simp [Node.plain] at hp
  case cos i a =>
    subst hb
    simp only [partialN, ptrEq_refl, if_true, M.bind_ok] at h
    obtain ⟨s, k, h1, h2⟩ := h
    refine nz_negN h0 ?_ h2
    cases b <;> simp [Node.isConstant] at hc <;> · simp [sinN] at h1; rw [← h1.1]; rfl
  case sin i a =>
    subst hb
    simp only [partialN, ptrEq_refl, if_true] at h
    cases b <;> simp [Node.isConstant] at hc <;> · simp [cosN] at h; rw [← h.1]; exact .inl rfl
  case mul i a d =>
    simp only [Node.plain, Bool.or_eq_false_iff] at hp
    simp only [partialN] at h
    split at h
    · rw [M.pure_ok] at h; rw [h.1]; exact .inl hp.2
    · split at h
      · rw [M.pure_ok] at h; rw [h.1]; exact .inl hp.1
      · exact hz h
  case div i a d =>
    simp only [Node.plain] at hp
    simp only [partialN] at h
    split at h
    · unfold sDiv at h
      have hd : ∀ v : F, d.isConstVal v = false := by intro v; cases d <;> simp_all [Node.isConstVal, Node.isConstant]
      rw [if_neg (by simp [hd]), if_neg (by simp [hd])] at h
      split at h
      · exact hz h
      · rw [if_neg (by simp [hp]), M.bind_ok] at h
        obtain ⟨_, _, _, h⟩ := h
        rw [newDiv_eq] at h; cases h; exact .inl rfl
    · split at h
      · simp only [M.bind_ok] at h
        obtain ⟨na, k1, -, bb, k2, h2, h3⟩ := h
        have hbb : ∃ j, bb = .mul j d d := by
          rcases mulN_cases d d with ⟨i, v, rfl, he⟩ | ⟨j, v, rfl, he⟩ | ⟨_, _, he⟩
          · simp [Node.isConstant] at hp
          · simp [Node.isConstant] at hp
          · rw [he, newMul_eq] at h2; cases h2; exact ⟨_, rfl⟩
        obtain ⟨j, rfl⟩ := hbb
        unfold divN at h3
        rw [if_neg (by simp [Node.isConstVal]), if_neg (by simp [Node.isConstVal])] at h3
        split at h3
        · exact hz h3
        · rw [if_neg (by simp [Node.isConstant]), newDiv_eq] at h3
          cases h3; exact .inl rfl
      · exact hz h

theorem nz_pathProd {path : List (Node F)} (hp : ArgPath path) : ∀ {n m : Nat} {prod r : Node F},
    NZ prod ∨ plainPath path = false → pathProd prod path n = .ok (r, m) → NZ r := by
  induction path with
  | nil =>
    intro n m prod r hc h; simp only [pathProd, M.pure_ok] at h; rw [h.1]
    exact hc.resolve_right (by simp [plainPath])
  | cons a path ih =>
    intro n m prod r hc h
    cases path with
    | nil =>
      simp only [pathProd, M.pure_ok] at h; rw [h.1]
      exact hc.resolve_right (by simp [plainPath])
    | cons b path =>
      obtain ⟨hb, hbc, hrest⟩ := hp
      simp only [pathProd, M.bind_ok] at h
      obtain ⟨p, k1, h1, q, k2, h2, h3⟩ := h
      refine ih hrest ?_ h3
      rcases hc with hc | hc
      · exact .inl (nz_mulN h0 (.inl hc) h2)
      · simp only [plainPath, Bool.and_eq_false_iff] at hc
        rcases hc with hc | hc
        · exact .inl (nz_mulN h0 (.inr (nz_partialN h0 hc hb hbc h1)) h2)
        · exact .inr hc

/-! ### Sums over the paths -/

theorem terms_ne_nil {h : Heap F} {a : Node F} (hg : Good .api h a) (ha : a.isConstant = false) : terms a ≠ [] := by
  cases a <;> simp [terms, Node.isConstant] at ha ⊢
  have := hg.shape.2 (by simp)
  simpa [Node.isConstant] using this

theorem NZ.cases {a : Node F} (ha : NZ a) : a.isConstVal zero = true ∨ a.isConstant = false := by
  rcases ha with ha | ⟨i, rfl⟩
  · exact .inr ha
  · exact .inl h0

theorem nz_addN {h : Heap F} {a b : Node F} (hga : Good .api h a) (hgb : Good .api h b) (ha : NZ a) (hb : NZ b) (n : Nat) :
    ∃ r m, addN a b n = .ok (r, m) ∧ NZ r := by
  cases hr : addN a b n with
  | error p =>
    exfalso
    obtain ⟨h1, h2, h3, -, -⟩ := addN_error.1 hr
    have ha' := (ha.cases h0).resolve_left (by simp [h1])
    have hb' := (hb.cases h0).resolve_left (by simp [h2])
    have := List.length_pos_iff.2 (terms_ne_nil h0 hga ha')
    have := List.length_pos_iff.2 (terms_ne_nil h0 hgb hb')
    rw [List.length_append] at h3
    omega
  | ok r =>
    obtain ⟨r, m⟩ := r
    refine ⟨r, m, rfl, ?_⟩
    unfold addN at hr
    split at hr
    · rw [M.pure_ok] at hr; rw [hr.1]; exact hb
    · rename_i haz
      split at hr
      · rw [M.pure_ok] at hr; rw [hr.1]; exact ha
      · have ha' := (ha.cases h0).resolve_left haz
        rw [gather_terms, gather_terms] at hr
        have hne : (terms a ++ terms b).isEmpty = false := by
          have := terms_ne_nil h0 hga ha'
          cases hta : terms a <;> simp_all
        unfold finishAdd at hr
        simp only [List.nil_append, hne, Bool.false_eq_true, if_false] at hr
        split at hr
        · rw [M.bind_ok] at hr
          obtain ⟨_, _, _, hr⟩ := hr
          rw [newAdd_ok] at hr
          left; rw [hr.2.1]; rfl
        · rw [newAdd_ok] at hr
          left; rw [hr.2.1]; rfl

omit h0 in
theorem const_addN {a b : Node F} (ha : a.isConstant = true) (hb : b.isConstant = true) (n : Nat) :
    ∃ r m, addN a b n = .ok (r, m) ∧ r.isConstant = true := by
  cases a <;> simp [Node.isConstant] at ha
  cases b <;> simp [Node.isConstant] at hb
  unfold addN
  split
  · exact ⟨_, _, rfl, rfl⟩
  · split
    · exact ⟨_, _, rfl, rfl⟩
    · simp only [gather, finishAdd, List.isEmpty_nil, if_true]
      exact ⟨_, _, newConst_eq _ _, rfl⟩

omit h0 in
theorem const_pathSum {ps : List (List (Node F))} (hp : ∀ p ∈ ps, ArgPath p) (hpl : ∀ p ∈ ps, plainPath p = true) :
    ∀ {h : Heap F} {n : Nat} {d : Node F}, HInv h n → Good .api h d → d.isConstant = true → (∀ p ∈ ps, ∀ y ∈ p, Good .api h y) →
      ∃ r m, pathSum d ps n = .ok (r, m) ∧ r.isConstant = true := by
  induction ps with
  | nil => intro h n d _ _ hc _; exact ⟨_, _, rfl, hc⟩
  | cons p ps ih =>
    intro h n d hn hd hc hps
    obtain ⟨hp1, hle1, hn1, _, hg1, -, -⟩ := spec_newConst (l := .api) (v := (one : F)) hn _ _ (newConst_eq one n)
    obtain ⟨⟨q, k2⟩, h2⟩ := onlyAdd_pathProd (l := .api) (by simp) (hp p (by simp)) hn1 hg1 fun y hy => (hps p (by simp) y hy).mono hle1
    obtain ⟨hp2, hle2, hn2, _, hg2⟩ := spec_pathProd hn1 hg1 (fun y hy => (hps p (by simp) y hy).mono hle1) q k2 h2
    have hq := const_pathProd (hp p (by simp)) (hpl p (by simp)) rfl h2
    obtain ⟨d', k3, h3, hd'⟩ := const_addN hc hq k2
    obtain ⟨hp3, hle3, hn3, _, hg3⟩ := spec_addN hn2 ((hd.mono hle1).mono hle2) hg2 d' k3 h3
    obtain ⟨r, m, h4, hr⟩ := ih (fun p hp' => hp p (by simp [hp'])) (fun p hp' => hpl p (by simp [hp'])) hn3 hg3 hd'
        (fun p' hp' y hy => (((hps p' (by simp [hp']) y hy).mono hle1).mono hle2).mono hle3)
    refine ⟨r, m, ?_, hr⟩
    simp only [pathSum]
    rw [M.bind_ok_eq (newConst_eq one n), M.bind_ok_eq h2, M.bind_ok_eq h3, h4]

theorem nz_pathSum {ps : List (List (Node F))} (hp : ∀ p ∈ ps, ArgPath p) (hpl : ∀ p ∈ ps, plainPath p = false) :
    ∀ {h : Heap F} {n : Nat} {d : Node F}, HInv h n → Good .api h d → NZ d → (∀ p ∈ ps, ∀ y ∈ p, Good .api h y) →
      ∃ r m, pathSum d ps n = .ok (r, m) ∧ NZ r := by
  induction ps with
  | nil => intro h n d _ _ hc _; exact ⟨_, _, rfl, hc⟩
  | cons p ps ih =>
    intro h n d hn hd hc hps
    obtain ⟨hp1, hle1, hn1, _, hg1, -, -⟩ := spec_newConst (l := .api) (v := (one : F)) hn _ _ (newConst_eq one n)
    obtain ⟨⟨q, k2⟩, h2⟩ := onlyAdd_pathProd (l := .api) (by simp) (hp p (by simp)) hn1 hg1 fun y hy => (hps p (by simp) y hy).mono hle1
    obtain ⟨hp2, hle2, hn2, _, hg2⟩ := spec_pathProd hn1 hg1 (fun y hy => (hps p (by simp) y hy).mono hle1) q k2 h2
    have hq := nz_pathProd h0 (hp p (by simp)) (.inr (hpl p (by simp))) h2
    obtain ⟨d', k3, h3, hd'⟩ := nz_addN h0 ((hd.mono hle1).mono hle2) hg2 hc hq k2
    obtain ⟨hp3, hle3, hn3, _, hg3⟩ := spec_addN hn2 ((hd.mono hle1).mono hle2) hg2 d' k3 h3
    obtain ⟨r, m, h4, hr⟩ := ih (fun p hp' => hp p (by simp [hp'])) (fun p hp' => hpl p (by simp [hp'])) hn3 hg3 hd'
        (fun p' hp' y hy => (((hps p' (by simp [hp']) y hy).mono hle1).mono hle2).mono hle3)
    refine ⟨r, m, ?_, hr⟩
    simp only [pathSum]
    rw [M.bind_ok_eq (newConst_eq one n), M.bind_ok_eq h2, M.bind_ok_eq h3, h4]

end

/-! ### Cells created -/

/-- The sum over the paths creates at least one cell for each path. -/
theorem pathSum_cells {l : Level} {ps : List (List (Node F))} : ∀ {h : Heap F} {n m : Nat} {d r : Node F}, HInv h n → Good l h d →
    (∀ p ∈ ps, ∀ y ∈ p, Good l h y) → pathSum d ps n = .ok (r, m) → n + ps.length ≤ m := by
  induction ps with
  | nil => intro h n m d r hn hd _ hr; simp only [pathSum, M.pure_ok] at hr; simp [hr.2]
  | cons p ps ih =>
    intro h n m d r hn hd hps hr
    simp only [pathSum] at hr
    obtain ⟨hp1, hle1, hn1, _, hg1, -, -⟩ := spec_newConst (l := l) (v := (one : F)) hn _ _ (newConst_eq one n)
    rw [M.bind_ok_eq (newConst_eq one n), M.bind_ok] at hr
    obtain ⟨q, k2, h2, hr⟩ := hr
    obtain ⟨hp2, hle2, hn2, hk2, hg2⟩ := spec_pathProd hn1 hg1 (fun y hy => (hps p (by simp) y hy).mono hle1) q k2 h2
    rw [M.bind_ok] at hr
    obtain ⟨d', k3, h3, hr⟩ := hr
    obtain ⟨hp3, hle3, hn3, hk3, hg3⟩ := spec_addN hn2 ((hd.mono hle1).mono hle2) hg2 d' k3 h3
    have := ih hn3 hg3 (fun p' hp' y hy => (((hps p' (by simp [hp']) y hy).mono hle1).mono hle2).mono hle3) hr
    simp only [List.length_cons]
    omega

end Verif
