import Verif.Proofs.Diff

/-! # Invariants of every program of API calls -/

set_option linter.unusedSectionVars false
set_option linter.unusedSimpArgs false

namespace Verif

variable {F : Type} [FloatOps F] {l : Level} {h : Heap F} {n : Nat}

theorem spec_pathProd {path : List (Node F)} : ∀ {h : Heap F} {n : Nat} {prod : Node F}, HInv h n → Good l h prod →
    (∀ y ∈ path, Good l h y) → Spec h n (pathProd prod path) (fun h' _ e => Good l h' e) := by
  induction path with
  | nil => intro h n prod hn hp _; exact Spec.pure hn hp
  | cons a path ih =>
    intro h n prod hn hp hpath
    cases path with
    | nil => exact Spec.pure hn hp
    | cons b path =>
      simp only [pathProd]
      refine (spec_partialN hn (hpath a (by simp))).bind fun h1 m1 p hle1 hn1 _ hp1 => ?_
      refine (spec_mulN hn1 (hp.mono hle1) hp1).bind fun h2 m2 q hle2 hn2 _ hq => ?_
      exact ih hn2 hq fun y hy => ((hpath y (by simp only [List.mem_cons] at hy ⊢; exact .inr hy)).mono hle1).mono hle2

theorem spec_pathSum {ps : List (List (Node F))} : ∀ {h : Heap F} {n : Nat} {d : Node F}, HInv h n → Good l h d →
    (∀ p ∈ ps, ∀ y ∈ p, Good l h y) → Spec h n (pathSum d ps) (fun h' _ e => Good l h' e) := by
  induction ps with
  | nil => intro h n d hn hd _; exact Spec.pure hn hd
  | cons p ps ih =>
    intro h n d hn hd hps
    simp only [pathSum]
    refine (spec_newConst (l := l) hn).bind fun h1 m1 k hle1 hn1 _ hk => ?_
    refine (spec_pathProd hn1 hk.1 fun y hy => (hps p (by simp) y hy).mono hle1).bind fun h2 m2 q hle2 hn2 _ hq => ?_
    refine (spec_addN hn2 ((hd.mono hle1).mono hle2) hq).bind fun h3 m3 d' hle3 hn3 _ hd' => ?_
    exact ih hn3 hd' fun p' hp' y hy => (((hps p' (by simp [hp']) y hy).mono hle1).mono hle2).mono hle3

/-- The loop of `derivatives` over the variables. -/
theorem spec_derivLoop {e : Node F} {vs : List (Node F)} : ∀ {h : Heap F} {n : Nat}, HInv h n → Good l h e →
    Spec h n (M.mapL (fun v => M.bind (newConst zero) fun d0 => M.bind (pathSum d0 ((dfs e).filter (endsAt v))) fun d =>
        M.pure (v, d)) vs) (fun h' _ r => ∀ p ∈ r, Good l h' p.2) := by
  induction vs with
  | nil => intro h n hn he; exact Spec.pure hn (by simp)
  | cons v vs ih =>
    intro h n hn he
    simp only [M.mapL]
    refine Spec.bind (Q := fun h' _ p => Good l h' (p : Node F × Node F).2) ?_ fun h1 m1 p hle1 hn1 _ hp => ?_
    · refine (spec_newConst (l := l) hn).bind fun h1 m1 k hle1 hn1 _ hk => ?_
      refine (spec_pathSum hn1 hk.1 ?_).bind fun h2 m2 q hle2 hn2 _ hq => Spec.pure hn2 hq
      intro p hp y hy
      exact (he.mono hle1).sub (dfs_occurs e p (List.mem_filter.1 hp).1 y hy)
    · refine (ih hn1 (he.mono hle1)).bind fun h2 m2 r hle2 hn2 _ hr => Spec.pure hn2 ?_
      intro q hq
      simp only [List.mem_cons] at hq
      rcases hq with rfl | hq
      · exact hp.mono hle2
      · exact hr q hq

theorem spec_derivatives {H : HashOrder} {e : Node F} {vars : List (Node F)} (hn : HInv h n) (he : Good l h e) :
    Spec h n (derivatives H e vars) (fun h' _ r => ∀ p ∈ r, Good l h' p.2) := by
  intro r m hr
  obtain ⟨-, vs, -, hr⟩ := derivatives_ok hr
  have hn' : HInv h (n + 2) := fun i hi => hn i (by omega)
  obtain ⟨h', h1, h2, h3, h4⟩ := spec_derivLoop hn' he r m hr
  exact ⟨h', h1, h2, by omega, h4⟩

theorem unwrapM_ok {α : Type} {o : Option α} {a : α} {n m : Nat} : unwrapM o n = .ok (a, m) ↔ o = some a ∧ m = n := by
  cases o <;> simp [unwrapM, M.pure, M.panic, eq_comm]

theorem spec_derivative {H : HashOrder} {e x : Node F} (hn : HInv h n) (he : Good l h e) :
    Spec h n (derivative H e x) (fun h' _ d => Good l h' d) := by
  refine (spec_derivatives hn he).bind fun h1 m1 r hle1 hn1 _ hr => ?_
  intro d m hd
  rw [unwrapM_ok] at hd
  obtain ⟨y, hy, _⟩ := getN_some_iff hd.1
  exact ⟨h1, h1.le_refl, by rw [hd.2]; exact hn1, by omega, hr _ hy⟩

/-- One call of the API keeps the invariant. -/
theorem spec_exec {H : HashOrder} {regs : List (Node F)} {op : Op F} (hn : HInv h n) (hr : ∀ x ∈ regs, Good l h x)
    (hl : l = .raw ∨ (l = .api ∧ op.isRaw = false)) :
    Spec h n (op.exec H regs) (fun h' _ rs => ∀ x ∈ rs, Good l h' x) := by
  have hmem : ∀ {i : Nat} {a : Node F}, regs[i]? = some a → Good l h a := fun hi => hr _ (List.mem_of_getElem? hi)
  have with1 : ∀ {i : Nat} {f : Node F → M (Node F)},
      (∀ a, Good l h a → Spec h n (f a) (fun h' _ e => Good l h' e)) →
      Spec h n (match regs[i]? with | some a => M.bind (f a) fun e => M.pure [e] | none => M.pure [])
        (fun h' _ rs => ∀ x ∈ rs, Good l h' x) := by
    intro i f hf
    split
    · rename_i a ha
      exact (hf a (hmem ha)).bind fun h1 m1 e _ hn1 _ he => Spec.pure hn1 (by simpa using he)
    · exact Spec.pure hn (by simp)
  have with2 : ∀ {i j : Nat} {f : Node F → Node F → M (Node F)},
      (∀ a b, Good l h a → Good l h b → Spec h n (f a b) (fun h' _ e => Good l h' e)) →
      Spec h n (match regs[i]?, regs[j]? with | some a, some b => M.bind (f a b) fun e => M.pure [e] | _, _ => M.pure [])
        (fun h' _ rs => ∀ x ∈ rs, Good l h' x) := by
    intro i j f hf
    split
    · rename_i a b ha hb
      exact (hf a b (hmem ha) (hmem hb)).bind fun h1 m1 e _ hn1 _ he => Spec.pure hn1 (by simpa using he)
    · exact Spec.pure hn (by simp)
  have hns : l ≠ .noSelf := by rcases hl with rfl | ⟨rfl, _⟩ <;> simp
  have single : ∀ {h' : Heap F} {e : Node F}, Good l h' e → ∀ x ∈ [e], Good l h' x := by
    intro h' e he x hx; rw [List.mem_singleton.1 hx]; exact he
  cases op
  case const v =>
    show Spec h n (M.bind (newConst v) fun e => M.pure [e]) _
    exact (spec_newConst (l := l) hn).bind fun _ _ _ _ hn1 _ he => .pure hn1 (single he.1)
  case var s k =>
    show Spec h n (M.bind (newVar s k) fun e => M.pure [e]) _
    exact (spec_newVar (l := l) hn).bind fun _ _ _ _ hn1 _ he => .pure hn1 (single he.1)
  case add i j => exact with2 fun a b ha hb => spec_addN hn ha hb
  case addScalar i c => exact with1 fun a ha => spec_addS hn ha
  case scalarAdd c i => exact with1 fun a ha => spec_sAdd hn ha
  case sub i j => exact with2 fun a b ha hb => spec_subN hn ha hb
  case subScalar i c => exact with1 fun a ha => spec_subS hn ha
  case scalarSub c i => exact with1 fun a ha => spec_sSub hn ha
  case mul i j => exact with2 fun a b ha hb => spec_mulN hn ha hb
  case mulScalar i c => exact with1 fun a ha => (spec_mulS a hn ha).weaken fun _ _ _ _ _ hq => hq.1
  case scalarMul c i => exact with1 fun a ha => (spec_sMul a hn ha).weaken fun _ _ _ _ _ hq => hq.1
  case div i j => exact with2 fun a b ha hb => spec_divN hn ha hb fun h0 => absurd h0 hns
  case divScalar i c => exact with1 fun a ha => spec_divS hn ha
  case scalarDiv c i => exact with1 fun a ha => spec_sDiv hn ha
  case neg i => exact with1 fun a ha => spec_negN hn ha
  case cos i => exact with1 fun a ha => spec_cosN hn ha
  case sin i => exact with1 fun a ha => spec_sinN hn ha
  case partialD i j => exact with2 fun a b ha _ => spec_partialN hn ha
  case derivative i j => exact with2 fun a b ha _ => spec_derivative hn ha
  case derivatives i js =>
    simp only [Op.exec]
    split
    · rename_i a ha
      refine (spec_derivatives hn (hmem ha)).bind fun h1 m1 r _ hn1 _ he => Spec.pure hn1 ?_
      intro x hx
      simp only [List.mem_map] at hx
      obtain ⟨p, hp, rfl⟩ := hx
      exact he p hp
    · exact Spec.pure hn (by simp)
  case rawAdd is =>
    have hraw : l = .raw := by simpa [Op.isRaw] using hl
    subst hraw
    refine (spec_newAdd (l := .raw) hn ?_ (by simp)).bind fun _ _ _ _ hn1 _ he => .pure hn1 (single he.1)
    intro a ha
    simp only [List.mem_filterMap] at ha
    obtain ⟨i, _, hi⟩ := ha
    exact hmem hi
  case rawMul i j =>
    have hraw : l = .raw := by simpa [Op.isRaw] using hl
    subst hraw
    exact with2 fun a b ha hb => (spec_newMul hn ha hb (by simp)).weaken fun _ _ _ _ _ hq => hq.1
  case rawDiv i j =>
    have hraw : l = .raw := by simpa [Op.isRaw] using hl
    subst hraw
    exact with2 fun a b ha hb => (spec_newDiv hn ha hb (by simp) (by simp)).weaken fun _ _ _ _ _ hq => hq.1
  case rawCos i =>
    have hraw : l = .raw := by simpa [Op.isRaw] using hl
    subst hraw
    exact with1 fun a ha => (spec_newCos hn ha (by simp)).weaken fun _ _ _ _ _ hq => hq.1
  case rawSin i =>
    have hraw : l = .raw := by simpa [Op.isRaw] using hl
    subst hraw
    exact with1 fun a ha => (spec_newSin hn ha (by simp)).weaken fun _ _ _ _ _ hq => hq.1

theorem spec_runOps {H : HashOrder} {ops : List (Op F)} : ∀ {h : Heap F} {n : Nat} {regs : List (Node F)},
    HInv h n → (∀ x ∈ regs, Good l h x) → (l = .raw ∨ (l = .api ∧ ∀ op ∈ ops, op.isRaw = false)) →
    Spec h n (runOps H regs ops) (fun h' _ rs => ∀ x ∈ rs, Good l h' x) := by
  induction ops with
  | nil => intro h n regs hn hr _; exact Spec.pure hn hr
  | cons op ops ih =>
    intro h n regs hn hr hl
    simp only [runOps]
    refine (spec_exec (op := op) hn hr (hl.imp id fun ⟨a, b⟩ => ⟨a, b op (by simp)⟩)).bind fun h1 m1 rs hle1 hn1 _ hrs => ?_
    refine ih hn1 ?_ (hl.imp id fun ⟨a, b⟩ => ⟨a, fun o ho => b o (by simp [ho])⟩)
    intro x hx
    simp only [List.mem_append] at hx
    rcases hx with hx | hx
    · exact (hr x hx).mono hle1
    · exact hrs x hx

theorem Reachable.inv {H : HashOrder} {regs : List (Node F)} {n : Nat} (h : Reachable H regs n) :
    ∃ hp : Heap F, HInv hp n ∧ ∀ x ∈ regs, Good .raw hp x := by
  obtain ⟨ops, hops⟩ := h
  obtain ⟨hp, -, h2, -, h3⟩ := spec_runOps (l := .raw) (h := fun _ => none) (H := H) (ops := ops) (regs := []) (n := 0)
    (fun _ _ => rfl) (by simp) (.inl rfl) regs n hops
  exact ⟨hp, h2, h3⟩

theorem ReachableApi.inv {H : HashOrder} {regs : List (Node F)} {n : Nat} (h : ReachableApi H regs n) :
    ∃ hp : Heap F, HInv hp n ∧ ∀ x ∈ regs, Good .api hp x := by
  obtain ⟨ops, hraw, hops⟩ := h
  obtain ⟨hp, -, h2, -, h3⟩ := spec_runOps (l := .api) (h := fun _ => none) (H := H) (ops := ops) (regs := []) (n := 0)
    (fun _ _ => rfl) (by simp) (.inr ⟨rfl, hraw⟩) regs n hops
  exact ⟨hp, h2, h3⟩

theorem ReachableApi.reachable {H : HashOrder} {regs : List (Node F)} {n : Nat} (h : ReachableApi H regs n) :
    Reachable H regs n := h.elim fun ops h => ⟨ops, h.2⟩

end Verif
