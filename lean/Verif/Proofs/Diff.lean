import Verif.Proofs.Heap

/-! # Path search and derivatives -/

set_option linter.unusedSectionVars false
set_option linter.unusedSimpArgs false

namespace Verif

variable {F : Type}

/-- All paths from a node to variables, in the order in which the work queue finds them (last argument first). -/
def dfs : Node F → List (List (Node F))
  | .const .. => []
  | .var i s k => [[.var i s k]]
  | .add i args => (dfsL args).map (Node.add i args :: ·)
  | .cos i a => (dfs a).map (Node.cos i a :: ·)
  | .div i a b => (dfs b ++ dfs a).map (Node.div i a b :: ·)
  | .mul i a b => (dfs b ++ dfs a).map (Node.mul i a b :: ·)
  | .sin i a => (dfs a).map (Node.sin i a :: ·)
where
  dfsL : List (Node F) → List (List (Node F))
    | [] => []
    | a :: as => dfsL as ++ dfs a

theorem dfsL_append (as bs : List (Node F)) : dfs.dfsL (as ++ bs) = dfs.dfsL bs ++ dfs.dfsL as := by
  induction as with
  | nil => simp [dfs.dfsL]
  | cons a as ih => simp [dfs.dfsL, ih]

theorem dfs_eq (e : Node F) : dfs e = if e.isVar then [[e]] else (dfs.dfsL e.arguments).map (e :: ·) := by
  cases e <;> simp [dfs, dfs.dfsL, Node.isVar, Node.arguments]

theorem mem_dfsL {as : List (Node F)} {p : List (Node F)} : p ∈ dfs.dfsL as ↔ ∃ a ∈ as, p ∈ dfs a := by
  induction as with
  | nil => simp [dfs.dfsL]
  | cons a as ih => simp [dfs.dfsL, ih, or_comm]

/-- The last node of the path is `v` (as `==` sees it). -/
def endsAt (v : Node F) (p : List (Node F)) : Bool :=
  match p.getLast? with
  | some y => y.ptrEq v
  | none => false

theorem endsAt_append {v : Node F} {p q : List (Node F)} (h : q ≠ []) : endsAt v (p ++ q) = endsAt v q := by
  unfold endsAt
  rw [List.getLast?_append_of_ne_nil _ h]

theorem endsAt_cons {v a : Node F} {q : List (Node F)} (h : q ≠ []) : endsAt v (a :: q) = endsAt v q :=
  endsAt_append (p := [a]) h

theorem dfs_head {e : Node F} {p : List (Node F)} (h : p ∈ dfs e) : ∃ t, p = e :: t := by
  rw [dfs_eq] at h
  split at h
  · simp at h; exact ⟨[], h⟩
  · simp only [List.mem_map] at h
    obtain ⟨t, _, rfl⟩ := h
    exact ⟨t, rfl⟩

theorem dfs_ne_nil {e : Node F} {p : List (Node F)} (h : p ∈ dfs e) : p ≠ [] := by
  obtain ⟨t, rfl⟩ := dfs_head h; simp

theorem dfs_occurs (e : Node F) : ∀ p ∈ dfs e, ∀ y ∈ p, Occurs y e := by
  induction e using Node.ind_args with
  | step e ih =>
    intro p hp y hy
    rw [dfs_eq] at hp
    split at hp
    · simp at hp; subst hp; simp at hy; subst hy; exact .refl _
    · simp only [List.mem_map, mem_dfsL] at hp
      obtain ⟨t, ⟨a, ha, ht⟩, rfl⟩ := hp
      simp only [List.mem_cons] at hy
      rcases hy with rfl | hy
      · exact .refl _
      · exact .arg ha (ih a ha t ht y hy)

/-! ### The work queue finds exactly these paths -/

/-- The paths still to be found from a work queue. -/
def pending (wq : List (Path F)) : List (List (Node F)) := wq.flatMap fun p => (dfs p.last).map (p.init ++ ·)

theorem pending_pushPaths (p : Path F) (wq : List (Path F)) :
    pending (pushPaths p wq) = (dfs.dfsL p.last.arguments).map (p.toList ++ ·) ++ pending wq := by
  unfold pushPaths
  generalize p.last.arguments = as
  generalize p.toList = pre
  induction as generalizing wq with
  | nil => simp [dfs.dfsL]
  | cons a as ih =>
    rw [List.foldl_cons, ih]
    simp [dfs.dfsL, pending]

theorem pending_cons (p : Path F) (wq : List (Path F)) :
    pending (p :: wq) = if p.last.isVar then p.toList :: pending (pushPaths p wq) else pending (pushPaths p wq) := by
  rw [pending_pushPaths]
  simp only [pending, List.flatMap_cons]
  rw [dfs_eq]
  cases hv : p.last.isVar
  · simp only [Bool.false_eq_true, if_false, List.map_map, Path.toList]
    congr 1
    apply List.map_congr_left
    intro t _
    simp
  · have : p.last.arguments = [] := by
      cases h : p.last <;> simp [h, Node.isVar] at hv ⊢
      simp [Node.arguments]
    simp [Path.toList, this, dfs.dfsL]

theorem endsAt_toList (v : Node F) (p : Path F) : endsAt v p.toList = p.last.ptrEq v := by
  simp [endsAt, Path.toList]

theorem searchPaths_eq (wq : List (Path F)) (paths : List (Node F × List (List (Node F)))) :
    searchPaths wq paths = paths.map fun e => (e.1, e.2 ++ (pending wq).filter (endsAt e.1)) := by
  fun_induction searchPaths wq paths with
  | case1 paths => simp [pending]
  | case2 paths p wq ih =>
    rw [ih, pending_cons]
    unfold recordPath
    cases hv : p.last.isVar
    · simp
    · simp only [if_true, List.map_map]
      apply List.map_congr_left
      intro e _
      simp only [Function.comp, List.filter_cons, endsAt_toList]
      cases p.last.ptrEq e.1 <;> simp

theorem ptrEq_refl (a : Node F) : a.ptrEq a = true := by simp [Node.ptrEq]

theorem ptrEq_symm (a b : Node F) : a.ptrEq b = b.ptrEq a := by
  rw [Bool.eq_iff_iff]
  simp only [Node.ptrEq, Bool.and_eq_true, beq_iff_eq]
  constructor <;> rintro ⟨h1, h2⟩ <;> exact ⟨h1.symm, h2.symm⟩

theorem ptrEq_trans {a b c : Node F} (h1 : a.ptrEq b = true) (h2 : b.ptrEq c = true) : a.ptrEq c = true := by
  simp only [Node.ptrEq, Bool.and_eq_true, beq_iff_eq] at *
  exact ⟨h1.1.trans h2.1, h1.2.trans h2.2⟩

/-! ### Sets of nodes -/

/-- No two entries are equal as nodes. -/
def NodupP (l : List (Node F)) : Prop := l.Pairwise fun a b => a.ptrEq b = false

theorem NodupP.perm {l l' : List (Node F)} (h : NodupP l) (p : l.Perm l') : NodupP l' := by
  unfold NodupP at *
  refine (p.pairwise_iff ?_).1 h
  intro a b h; rw [ptrEq_symm]; exact h

theorem setInsert_mem {s : List (Node F)} {x y : Node F} (h : y ∈ setInsert s x) : y ∈ s ∨ y = x := by
  unfold setInsert at h
  split at h
  · exact .inl h
  · simpa using h

theorem setInsert_nodup {s : List (Node F)} {x : Node F} (h : NodupP s) : NodupP (setInsert s x) := by
  unfold setInsert
  split
  · exact h
  · rename_i hx
    simp only [NodupP, List.pairwise_append]
    refine ⟨h, List.pairwise_singleton .., ?_⟩
    intro a ha b hb
    simp only [List.mem_singleton] at hb
    subst hb
    simp only [List.any_eq_true, not_exists, not_and, Bool.not_eq_true] at hx
    exact hx a ha

theorem setInsert_sub {s : List (Node F)} {x y : Node F} (h : y ∈ s) : y ∈ setInsert s x := by
  unfold setInsert; split
  · exact h
  · simp [h]

theorem setInsert_has (s : List (Node F)) (x : Node F) : ∃ y ∈ setInsert s x, y.ptrEq x = true := by
  unfold setInsert; split
  · rename_i h; simpa [List.any_eq_true] using h
  · exact ⟨x, by simp, ptrEq_refl x⟩

theorem setOf_go (vars s : List (Node F)) (hs : NodupP s) :
    NodupP (vars.foldl setInsert s) ∧ (∀ y ∈ vars.foldl setInsert s, y ∈ s ∨ y ∈ vars) ∧
      (∀ y ∈ s, y ∈ vars.foldl setInsert s) ∧ (∀ x ∈ vars, ∃ y ∈ vars.foldl setInsert s, y.ptrEq x = true) := by
  induction vars generalizing s with
  | nil => exact ⟨hs, fun y h => .inl h, fun y h => h, by simp⟩
  | cons a vars ih =>
    obtain ⟨h1, h2, h3, h4⟩ := ih (setInsert s a) (setInsert_nodup hs)
    refine ⟨h1, ?_, fun y hy => h3 y (setInsert_sub hy), ?_⟩
    · intro y hy
      rcases h2 y hy with h | h
      · rcases setInsert_mem h with h | rfl
        · exact .inl h
        · exact .inr (by simp)
      · exact .inr (by simp [h])
    · intro x hx
      simp only [List.mem_cons] at hx
      rcases hx with rfl | hx
      · obtain ⟨y, hy, hp⟩ := setInsert_has s x
        exact ⟨y, h3 y hy, hp⟩
      · exact h4 x hx

theorem setOf_nodup (vars : List (Node F)) : NodupP (setOf vars) := (setOf_go vars [] .nil).1
theorem setOf_mem {vars : List (Node F)} {y : Node F} (h : y ∈ setOf vars) : y ∈ vars := by
  rcases (setOf_go vars [] .nil).2.1 y h with h | h
  · simp at h
  · exact h
theorem setOf_has {vars : List (Node F)} {x : Node F} (h : x ∈ vars) : ∃ y ∈ setOf vars, y.ptrEq x = true :=
  (setOf_go vars [] .nil).2.2.2 x h

theorem getN_map {β : Type} {l : List (Node F)} {f : Node F → β} {v : Node F} (hl : NodupP l) (hv : v ∈ l) :
    getN (l.map fun x => (x, f x)) v = some (f v) := by
  induction l with
  | nil => simp at hv
  | cons a l ih =>
    simp only [List.map_cons, getN]
    simp only [List.mem_cons] at hv
    rcases hv with rfl | hv
    · simp [ptrEq_refl]
    · have := (List.pairwise_cons.1 hl).1 v hv
      simp [this]
      simpa using ih (List.pairwise_cons.1 hl).2 hv

theorem getN_some_iff {β : Type} {m : List (Node F × β)} {k : Node F} {b : β} :
    getN m k = some b → ∃ x, (x, b) ∈ m ∧ x.ptrEq k = true := by
  induction m with
  | nil => simp [getN]
  | cons e m ih =>
    obtain ⟨x, c⟩ := e
    simp only [getN]
    split
    · rename_i h; intro hb; simp at hb; subst hb; exact ⟨x, by simp, h⟩
    · intro hb
      obtain ⟨y, hy, hk⟩ := ih hb
      exact ⟨y, by simp [hy], hk⟩

/-- Everything `all_simple_paths` computes. -/
theorem allSimplePaths_ok {H : HashOrder} {e : Node F} {vars : List (Node F)} {n m : Nat}
    {r : List (Node F × List (List (Node F)))} (h : allSimplePaths H e vars n = .ok (r, m)) :
    (∀ v ∈ vars, v.isVar = true) ∧ ∃ vs : List (Node F), vs.Perm (setOf vars) ∧ m = n + 1 ∧
      r = vs.map fun v => (v, (dfs e).filter (endsAt v)) := by
  simp only [allSimplePaths, M.bind_ok, M.pure_ok, checkVars] at h
  obtain ⟨_, k, h1, vs, k2, h2, rfl, rfl⟩ := h
  split at h1
  · rename_i hv
    rw [M.pure_ok] at h1
    obtain ⟨-, rfl⟩ := h1
    have hp := HashOrder.iter_perm h2
    rw [HashOrder.iter_ok] at h2
    refine ⟨by simpa using hv, vs, hp, h2.2, ?_⟩
    rw [searchPaths_eq]
    simp [pending]
  · simp [M.panic_ok] at h1

variable [FloatOps F]

/-- Everything `derivatives` computes: one derivative per variable of the set. -/
theorem derivatives_ok {H : HashOrder} {e : Node F} {vars : List (Node F)} {n m : Nat} {r : List (Node F × Node F)}
    (h : derivatives H e vars n = .ok (r, m)) :
    (∀ v ∈ vars, v.isVar = true) ∧ ∃ vs : List (Node F), vs.Perm (setOf vars) ∧
      M.mapL (fun v => M.bind (newConst zero) fun d0 => M.bind (pathSum d0 ((dfs e).filter (endsAt v))) fun d =>
        M.pure (v, d)) vs (n + 2) = .ok (r, m) := by
  simp only [derivatives, M.bind_ok] at h
  obtain ⟨_, k, h1, vs, k2, h2, ps, k3, h3, h4⟩ := h
  have hcheck : (∀ v ∈ vars, v.isVar = true) ∧ k = n := by
    unfold checkVars at h1
    split at h1
    · rename_i hv
      rw [M.pure_ok] at h1
      exact ⟨by simpa using hv, h1.2⟩
    · simp [M.panic_ok] at h1
  obtain ⟨hv, rfl⟩ := hcheck
  have hp := HashOrder.iter_perm h2
  rw [HashOrder.iter_ok] at h2
  obtain ⟨-, vs', hp', rfl, rfl⟩ := allSimplePaths_ok h3
  refine ⟨hv, vs, hp, ?_⟩
  rw [← h4, h2.2]
  have hnd : NodupP vs' := (setOf_nodup vars).perm hp'.symm
  have hmem : ∀ v ∈ vs, getN (vs'.map fun v => (v, (dfs e).filter (endsAt v))) v = some ((dfs e).filter (endsAt v)) :=
    fun v hv => getN_map hnd (hp'.mem_iff.2 (hp.mem_iff.1 hv))
  clear h1 h2 h3 h4 hp hv
  have hgen : ∀ n, M.mapL (fun v => M.bind (newConst zero) fun d0 => M.bind (pathSum d0 ((dfs e).filter (endsAt v))) fun d =>
        M.pure (v, d)) vs n = M.mapL (fun v => M.bind (newConst zero) fun d0 =>
          M.bind (unwrapM (getN (vs'.map fun v => (v, (dfs e).filter (endsAt v))) v)) fun ps =>
          M.bind (pathSum d0 ps) fun d => M.pure (v, d)) vs n := by
    induction vs with
    | nil => intro n; rfl
    | cons a vs ih =>
      intro n
      have ih' := funext (ih fun v hv => hmem v (by simp [hv]))
      simp only [M.mapL, hmem a (by simp), ih']
      rfl
  rw [hgen]

end Verif
