import Verif.Proofs.Size

/-! # The number of cells that differentiation creates -/

set_option linter.unusedSectionVars false
set_option linter.unusedSimpArgs false

namespace Verif

variable {F : Type}

/-- If it returns, at most `c` cells have been created and the result satisfies `P`. -/
def Within {α : Type} (x : M α) (c : Nat) (P : α → Prop) : Prop := ∀ n a m, x n = .ok (a, m) → m ≤ n + c ∧ P a

theorem Within.pure {α : Type} {a : α} {c : Nat} {P : α → Prop} (h : P a) : Within (M.pure a) c P := by
  intro n b m hb; rw [M.pure_ok] at hb; rw [hb.1, ← hb.2]; exact ⟨by omega, h⟩

theorem Within.bind {α β : Type} {x : M α} {f : α → M β} {c1 c2 c : Nat} {P : α → Prop} {Q : β → Prop} (hx : Within x c1 P) (hf : ∀ a, P a → Within (f a) c2 Q)
    (hc : c1 + c2 ≤ c) : Within (M.bind x f) c Q := by
  intro n b m hb
  rw [M.bind_ok] at hb
  obtain ⟨a, k, h1, h2⟩ := hb
  obtain ⟨h3, h4⟩ := hx _ _ _ h1
  obtain ⟨h5, h6⟩ := hf a h4 _ _ _ h2
  exact ⟨by omega, h6⟩

theorem Within.ite {α : Type} {c : Prop} [Decidable c] {x y : M α} {k : Nat} {P : α → Prop} (hx : c → Within x k P) (hy : ¬ c → Within y k P) :
    Within (if c then x else y) k P := by
  split
  · exact hx ‹_›
  · exact hy ‹_›

theorem Within.panic {α : Type} {p : Panic} {c : Nat} {P : α → Prop} : Within (M.panic p : M α) c P := by
  intro n a m h; simp [M.panic_ok] at h

/-- Costs and postconditions are shown separately. -/
theorem Within.post {α : Type} {x : M α} {c d : Nat} {P : α → Prop} (h : Within x c fun _ => True) (hp : Post x P) (hd : c ≤ d) : Within x d P := by
  intro n a m ha
  have := (h n a m ha).1
  exact ⟨by omega, hp n a m ha⟩

theorem Within.le {α : Type} {x : M α} {c d : Nat} {P : α → Prop} (h : Within x c P) (hd : c ≤ d) : Within x d P := by
  intro n a m ha
  have := h n a m ha
  exact ⟨by omega, this.2⟩

section
variable [FloatOps F]

theorem cells_newConst (v : F) {c : Nat} (hc : 1 ≤ c) : Within (newConst v) c (fun _ => True) := by
  intro n r m h
  rw [newConst_eq] at h; cases h; exact ⟨by omega, trivial⟩

theorem cells_newMul (a b : Node F) {c : Nat} (hc : 1 ≤ c) : Within (newMul a b) c (fun _ => True) := by
  intro n r m h
  rw [newMul_eq] at h; cases h; exact ⟨by omega, trivial⟩

theorem cells_newAdd (args : List (Node F)) {c : Nat} (hc : 1 ≤ c) : Within (newAdd args) c (fun _ => True) := by
  intro n r m h
  obtain ⟨-, -, rfl⟩ := newAdd_ok.1 h
  exact ⟨by omega, trivial⟩

theorem cells_newDiv (a b : Node F) {c : Nat} (hc : 1 ≤ c) : Within (newDiv a b) c (fun _ => True) := by
  intro n r m h
  cases h; exact ⟨by omega, trivial⟩

theorem cells_newCos (a : Node F) {c : Nat} (hc : 1 ≤ c) : Within (newCos a) c (fun _ => True) := by
  intro n r m h
  cases h; exact ⟨by omega, trivial⟩

theorem cells_newSin (a : Node F) {c : Nat} (hc : 1 ≤ c) : Within (newSin a) c (fun _ => True) := by
  intro n r m h
  cases h; exact ⟨by omega, trivial⟩

theorem cells_finishAdd (acc : F × List (Node F)) : Within (finishAdd acc) 2 (fun _ => True) := by
  unfold finishAdd
  exact .ite (fun _ => cells_newConst _ (by omega)) fun _ => .ite (fun _ => (cells_newConst _ (Nat.le_refl 1)).bind (fun _ _ => cells_newAdd _ (Nat.le_refl 1)) (by omega))
    fun _ => cells_newAdd _ (by omega)

theorem cells_addN (a b : Node F) : Within (addN a b) 2 (fun _ => True) := by
  unfold addN
  exact .ite (fun _ => .pure trivial) fun _ => .ite (fun _ => .pure trivial) fun _ => cells_finishAdd _

theorem cells_mapL {k : Node F → M (Node F)} {as : List (Node F)} (h : ∀ a ∈ as, Within (k a) (2 * a.size) fun _ => True) :
    Within (M.mapL k as) (2 * Node.size.total as) (fun _ => True) := by
  induction as with
  | nil => exact .pure trivial
  | cons a as ih =>
    simp only [M.mapL, Node.size.total]
    exact (h a (by simp)).bind (fun b _ => (ih fun x hx => h x (by simp [hx])).bind (fun bs _ => .pure (c := 0) trivial) (Nat.le_refl _)) (by omega)

theorem cells_mapAdd {k : Node F → M (Node F)} {i : Nat} {args : List (Node F)} (h : ∀ a ∈ args, Within (k a) (2 * a.size) fun _ => True) :
    Within (M.bind (M.mapL k args) newAdd) (2 * (Node.add i args).size) (fun _ => True) :=
  (cells_mapL h).bind (fun bs _ => cells_newAdd bs (Nat.le_refl 1)) (by simp only [Node.size]; omega)

theorem cells_sMul (c : F) (a : Node F) : Within (sMul c a) (2 * a.size) (fun _ => True) := by
  have hs := size_pos a
  induction a using Node.ind with
  | const i v => exact cells_newConst _ (by omega)
  | add i args ih =>
    simp only [sMul, sMulL_eqD]
    exact .ite (fun _ => cells_newConst _ (by omega)) fun _ => .ite (fun _ => .pure trivial) fun _ => cells_mapAdd fun a ha => ih a ha (size_pos a)
  | _ =>
    simp only [sMul]
    exact .ite (fun _ => cells_newConst _ (by omega)) fun _ => .ite (fun _ => .pure trivial) fun _ => (cells_newConst _ (Nat.le_refl 1)).bind (fun _ _ => cells_newMul _ _ (Nat.le_refl 1)) (by omega)

theorem cells_mulCL (j : Nat) (c : F) (a : Node F) : Within (mulCL j c a) (2 * a.size) (fun _ => True) := by
  have hs := size_pos a
  induction a using Node.ind with
  | const i v =>
    simp only [mulCL]
    exact .ite (fun _ => cells_newConst _ (by omega)) fun _ => .ite (fun _ => .pure trivial) fun _ => .ite (fun _ => .pure trivial) fun _ => cells_newConst _ (by omega)
  | add i args ih =>
    simp only [mulCL, mulCLL_eqD]
    exact .ite (fun _ => cells_newConst _ (by omega)) fun _ => .ite (fun _ => .pure trivial) fun _ => cells_mapAdd fun a ha => ih a ha (size_pos a)
  | _ =>
    simp only [mulCL]
    exact .ite (fun _ => cells_newConst _ (by omega)) fun _ => .ite (fun _ => .pure trivial) fun _ => cells_newMul _ _ (by omega)

theorem cells_mulCR (j : Nat) (c : F) (a : Node F) : Within (mulCR j c a) (2 * a.size) (fun _ => True) := by
  have hs := size_pos a
  induction a using Node.ind with
  | const i v =>
    simp only [mulCR]
    exact .ite (fun _ => cells_newConst _ (by omega)) fun _ => .ite (fun _ => .pure trivial) fun _ => .ite (fun _ => .pure trivial) fun _ => cells_newConst _ (by omega)
  | add i args ih =>
    simp only [mulCR, mulCRL_eqD]
    exact .ite (fun _ => cells_newConst _ (by omega)) fun _ => .ite (fun _ => .pure trivial) fun _ => cells_mapAdd fun a ha => ih a ha (size_pos a)
  | _ =>
    simp only [mulCR]
    exact .ite (fun _ => cells_newConst _ (by omega)) fun _ => .ite (fun _ => .pure trivial) fun _ => cells_newMul _ _ (by omega)

theorem cells_mulN (a b : Node F) : Within (mulN a b) (2 * (a.size + b.size)) (fun _ => True) := by
  have ha := size_pos a
  have h0 : Within (newMul a b) (2 * (a.size + b.size)) (fun _ => True) := cells_newMul a b (by omega)
  have h1 : ∀ i v, Within (mulCL i v b) (2 * (a.size + b.size)) (fun _ => True) := fun i v => (cells_mulCL i v b).le (by omega)
  have h2 : ∀ i v, Within (mulCR i v a) (2 * (a.size + b.size)) (fun _ => True) := fun i v => (cells_mulCR i v a).le (by omega)
  cases a <;> cases b <;> simp only [mulN] <;> first | exact h0 | exact h1 _ _ | exact h2 _ _

theorem cells_negN (a : Node F) : Within (negN a) (2 * a.size) (fun _ => True) := by
  have hs := size_pos a
  cases a with
  | const i v => exact cells_newConst _ (by omega)
  | _ => exact cells_sMul _ _

theorem cells_divN (a b : Node F) : Within (divN a b) 1 (fun _ => True) := by
  unfold divN
  exact .ite (fun _ => .panic) fun _ => .ite (fun _ => .pure trivial) fun _ => .ite (fun _ => cells_newConst _ (by omega)) fun _ =>
    .ite (fun _ => cells_newConst _ (by omega)) fun _ => cells_newDiv a b (by omega)

theorem cells_sDiv (c : F) (b : Node F) : Within (sDiv c b) 2 (fun _ => True) := by
  unfold sDiv
  exact .ite (fun _ => .panic) fun _ => .ite (fun _ => cells_newConst _ (by omega)) fun _ => .ite (fun _ => cells_newConst _ (by omega)) fun _ =>
    .ite (fun _ => cells_newConst _ (by omega)) fun _ => (cells_newConst c (Nat.le_refl 1)).bind (fun k _ => cells_newDiv k b (Nat.le_refl 1)) (by omega)

theorem cells_cosN (a : Node F) : Within (cosN a) 1 (fun _ => True) := by
  cases a with
  | const i v => exact cells_newConst _ (by omega)
  | _ => exact cells_newCos _ (by omega)

theorem cells_sinN (a : Node F) : Within (sinN a) 1 (fun _ => True) := by
  cases a with
  | const i v => exact cells_newConst _ (by omega)
  | _ => exact cells_newSin _ (by omega)

theorem cells_partialN (n arg : Node F) : Within (partialN n arg) (4 * n.size) (fun _ => True) := by
  have hn := size_pos n
  cases n with
  | const i v => exact cells_newConst _ (by omega)
  | var i s k => exact cells_newConst _ (by omega)
  | add i args => exact cells_newConst _ (by omega)
  | cos i a =>
    have ha := size_pos a
    simp only [partialN]
    refine .ite (fun _ => ((cells_sinN a).post (size_sinN a) (Nat.le_refl _)).bind (fun s hs => (cells_negN s).le (d := 2 * (a.size + 1)) (by have := hs.1; omega)) ?_)
      fun _ => cells_newConst _ (by omega)
    simp only [Node.size]; omega
  | sin i a =>
    simp only [partialN]
    exact .ite (fun _ => (cells_cosN a).le (by omega)) fun _ => cells_newConst _ (by omega)
  | mul i a b =>
    simp only [partialN]
    exact .ite (fun _ => .pure trivial) fun _ => .ite (fun _ => .pure trivial) fun _ => cells_newConst _ (by omega)
  | div i a b =>
    simp only [partialN]
    refine .ite (fun _ => (cells_sDiv one b).le (by omega)) fun _ => .ite (fun _ => ?_) fun _ => cells_newConst _ (by omega)
    exact (cells_negN a).bind (fun na _ => (cells_mulN b b).bind (fun bb _ => cells_divN na bb) (Nat.le_refl _)) (by simp only [Node.size]; omega)

theorem cells_pathProd {s B : Nat} {path : List (Node F)} (hp : ArgPath path) : ∀ {prod e : Node F} {rest : List (Node F)}, path = e :: rest → e.size ≤ s → prod.width ≤ s →
    prod.size + 6 * s * (e.depth - 1) ≤ B → Within (pathProd prod path) ((e.depth - 1) * (2 * B + 12 * s)) (fun _ => True) := by
  induction path with
  | nil => intro _ _ _ h; cases h
  | cons a path ih =>
    intro prod e rest he hs hw hB
    obtain ⟨rfl, rfl⟩ := List.cons.inj he
    cases path with
    | nil => exact .pure trivial
    | cons b path =>
      obtain ⟨hab, -, hp'⟩ := hp
      have hb := depth_arg hab
      have hbs := size_arg hab
      have hbp := depth_pos b
      simp only [pathProd]
      have h3 : 6 * s * (b.depth - 1) + 6 * s ≤ 6 * s * (a.depth - 1) := by
        rw [← Nat.mul_succ]; exact Nat.mul_le_mul_left _ (by omega)
      have h4 : (b.depth - 1) * (2 * B + 12 * s) + (2 * B + 12 * s) ≤ (a.depth - 1) * (2 * B + 12 * s) := by
        rw [← Nat.succ_mul]; exact Nat.mul_le_mul_right _ (by omega)
      refine ((cells_partialN a b).post (size_partialN a b) (Nat.le_refl _)).bind (fun p hpd => ?_) (c2 := 2 * (prod.size + 4 * a.size) + (b.depth - 1) * (2 * B + 12 * s)) ?_
      · have h1 := hpd.1
        refine ((cells_mulN prod p).post (size_mulN prod p (w := s) hw (hpd.2.trans hs)) (Nat.le_refl _)).bind (fun q hq => ih hp' rfl (by omega) hq.2 ?_) (by omega)
        have h2 := hq.1
        omega
      · omega

theorem cells_pathSum {e : Node F} (ps : List (List (Node F))) (hp : ∀ p ∈ ps, ArgPath p ∧ ∃ t, p = e :: t) : ∀ d : Node F,
    Within (pathSum d ps) (ps.length * (3 + (e.depth - 1) * (2 * (1 + 6 * e.size * (e.depth - 1)) + 12 * e.size))) (fun _ => True) := by
  have hpos := size_pos e
  induction ps with
  | nil => intro d; exact .pure trivial
  | cons p ps ih =>
    intro d
    obtain ⟨h1, t, ht⟩ := hp p (by simp)
    simp only [pathSum]
    rw [List.length_cons, Nat.succ_mul]
    exact ((cells_newConst one (Nat.le_refl 1)).post (size_newConst one (s := 1) (w := 1) (by omega) (by omega)) (Nat.le_refl _)).bind (fun k hk =>
      (cells_pathProd h1 (prod := k) (B := 1 + 6 * e.size * (e.depth - 1)) ht (Nat.le_refl _) (by have := hk.2; omega) (by have := hk.1; omega)).bind (fun q _ =>
        (cells_addN d q).bind (fun d' _ => ih (fun p hp' => hp p (by simp [hp'])) d') (Nat.le_refl _)) (Nat.le_refl _)) (by omega)

/-! ## The standard form -/

theorem placeCells_mono {s t : Nat} (h : s ≤ t) : placeCells s ≤ placeCells t := by
  unfold placeCells
  have h1 := Nat.mul_le_mul h h
  exact Nat.add_le_add_left (Nat.mul_le_mul h (by omega)) 3

theorem derivsCells_mono {k l s t : Nat} (hk : k ≤ l) (h : s ≤ t) : derivsCells k s ≤ derivsCells l t := by
  unfold derivsCells
  exact Nat.add_le_add_left (Nat.mul_le_mul hk (Nat.add_le_add_left (Nat.mul_le_mul h (placeCells_mono h)) 1)) 2

theorem componentCells_mono {s t : Nat} (h : s ≤ t) : componentCells s ≤ componentCells t := by
  unfold componentCells
  have h1 := derivsCells_mono h h
  have h2 := Nat.mul_le_mul h (derivsCells_mono h (derivBound_mono h))
  omega

theorem place_le (e : Node F) : 3 + (e.depth - 1) * (2 * (1 + 6 * e.size * (e.depth - 1)) + 12 * e.size) ≤ placeCells e.size := by
  unfold placeCells
  have h2 := depth_size e
  have h3 : 6 * e.size * (e.depth - 1) ≤ 6 * (e.size * e.size) := by
    rw [Nat.mul_assoc]
    exact Nat.mul_le_mul_left _ (Nat.mul_le_mul_left _ (by omega))
  exact Nat.add_le_add_left (Nat.mul_le_mul (by omega) (by omega)) 3

theorem within_mapL {α β : Type} {f : α → M β} {c : Nat} (h : ∀ a, Within (f a) c fun _ => True) (as : List α) : Within (M.mapL f as) (as.length * c) (fun _ => True) := by
  induction as with
  | nil => exact .pure trivial
  | cons a as ih =>
    simp only [M.mapL]
    exact (h a).bind (fun b _ => ih.bind (fun bs _ => .pure (c := 0) trivial) (Nat.le_refl _)) (by rw [List.length_cons, Nat.succ_mul]; omega)

theorem within_iter {α : Type} (H : HashOrder) (l : List α) : Within (H.iter l) 1 (fun r => r.length = l.length) := by
  intro n r m h
  have hp := HashOrder.iter_perm h
  rw [HashOrder.iter_ok] at h
  exact ⟨by omega, hp.length_eq⟩

theorem within_unwrap {α : Type} {o : Option α} : Within (unwrapM o) 0 (fun a => o = some a) := by
  cases o with
  | none => exact .panic
  | some a => exact .pure rfl

theorem setInsert_length (s : List (Node F)) (x : Node F) : (setInsert s x).length ≤ s.length + 1 := by
  unfold setInsert
  split <;> simp

theorem setOf_length (vars : List (Node F)) : (setOf vars).length ≤ vars.length := by
  have key : ∀ (vs s : List (Node F)), (vs.foldl setInsert s).length ≤ s.length + vs.length := by
    intro vs
    induction vs with
    | nil => intro s; simp
    | cons v vs ih =>
      intro s
      simp only [List.foldl_cons, List.length_cons]
      have := ih (setInsert s v)
      have := setInsert_length s v
      omega
  have := key vars []
  simpa [setOf] using this

theorem cells_derivatives {H : HashOrder} (e : Node F) (vars : List (Node F)) : Within (derivatives H e vars) (derivsCells vars.length e.size) (fun _ => True) := by
  intro n r m h
  obtain ⟨-, vs, hp, h1⟩ := derivatives_ok h
  have hl : vs.length ≤ vars.length := hp.length_eq ▸ setOf_length vars
  have hw := within_mapL (c := 1 + e.size * placeCells e.size) (f := fun v => M.bind (newConst (F := F) zero) fun d0 => M.bind (pathSum d0 ((dfs e).filter (endsAt v))) fun d => M.pure (v, d))
    (fun v => (cells_newConst zero (Nat.le_refl 1)).bind (fun d0 _ => ((cells_pathSum (e := e) ((dfs e).filter (endsAt v)) (fun p hp =>
      ⟨dfs_argPath e p (List.mem_filter.1 hp).1, dfs_head (List.mem_filter.1 hp).1⟩) d0).le (d := e.size * placeCells e.size)
        (Nat.mul_le_mul (by rw [dfs_count]; exact occurrences_size v e) (place_le e))).bind (fun d _ => .pure (c := 0) trivial) (Nat.le_refl _)) (Nat.le_refl _)) vs _ _ _ h1
  have := Nat.mul_le_mul_right (1 + e.size * placeCells e.size) hl
  unfold derivsCells
  exact ⟨by omega, trivial⟩

theorem cells_hessRow {v : Node F} {dd : List (Node F × Node F)} (vs : List (Node F)) : Within (hessRow v dd vs) 0 (fun _ => True) := by
  induction vs with
  | nil => exact .pure trivial
  | cons w vs ih =>
    simp only [hessRow]
    exact within_unwrap.bind (fun e _ => ih.bind (fun r _ => .pure (c := 0) trivial) (Nat.le_refl _)) (Nat.le_refl _)

theorem cells_hessLoop {H : HashOrder} {ds : List (Node F × Node F)} {d k : Nat} (h : ∀ p ∈ ds, p.2.size ≤ d) (vs : List (Node F)) :
    vs.length ≤ k → Within (hessLoop H ds vs) (vs.length * derivsCells k d) (fun _ => True) := by
  induction vs with
  | nil => intro _; exact .pure trivial
  | cons v vs ih =>
    intro hk
    simp only [hessLoop, List.length_cons, Nat.succ_mul]
    refine within_unwrap.bind (c1 := 0) (fun e he => ?_) (Nat.le_of_eq (Nat.zero_add _))
    have he' : e.size ≤ d := getN_size h he
    exact ((cells_derivatives e (v :: vs)).le (derivsCells_mono hk he')).bind (fun dd _ => (cells_hessRow _).bind (c1 := 0) (fun row _ =>
      (ih (by simp only [List.length_cons] at hk; omega)).bind (fun rest _ => .pure (c := 0) trivial) (Nat.le_refl _)) (Nat.le_of_eq (Nat.zero_add _))) (by omega)

/-! The number of variables of a formula -/

theorem insertN_length {β : Type} (m : List (Node F × β)) (k : Node F) (v : β) : (insertN m k v).length ≤ m.length + 1 := by
  induction m with
  | nil => simp [insertN]
  | cons p m ih =>
    simp only [insertN]
    split <;> simp <;> omega

theorem addToN_length (m : List (Node F × F)) (k : Node F) (v : F) : (addToN m k v).length ≤ m.length + 1 := by
  induction m with
  | nil => simp [addToN]
  | cons p m ih =>
    simp only [addToN]
    split <;> simp <;> omega

theorem foldl_length {α β : Type} {f : List β → α → List β} (hf : ∀ m x, (f m x).length ≤ m.length + 1) (l : List α) (m : List β) : (l.foldl f m).length ≤ m.length + l.length := by
  induction l generalizing m with
  | nil => simp
  | cons a l ih =>
    have h1 := ih (f m a)
    have h2 := hf m a
    simp only [List.foldl_cons, List.length_cons]
    omega

theorem keys_length (e : Node F) : e.stdProperties.a.length ≤ e.size := by
  induction e using Node.ind with
  | const i v => simp [Node.stdProperties, Node.size]
  | var i s k => simp [Node.stdProperties, Node.size]
  | cos i a ih => simp only [Node.stdProperties, Node.size]; omega
  | sin i a ih => simp only [Node.stdProperties, Node.size]; omega
  | div i a b iha ihb =>
    simp only [Node.stdProperties, Node.size]
    refine (foldl_length (fun m x => insertN_length m _ _) _ _).trans ?_
    have := foldl_length (f := fun m (e : Node F × F) => insertN m e.1 (e.2 /. b.stdProperties.b)) (fun m x => insertN_length m _ _) a.stdProperties.a []
    simp only [List.length_nil] at this
    omega
  | mul i a b iha ihb =>
    simp only [Node.stdProperties, Node.size]
    refine (foldl_length (fun m x => insertN_length m _ _) _ _).trans ?_
    have := foldl_length (f := fun m (e : Node F × F) => insertN m e.1 (e.2 *. b.stdProperties.b)) (fun m x => insertN_length m _ _) a.stdProperties.a []
    simp only [List.length_nil] at this
    omega
  | add i args ih =>
    have key : ∀ (as : List (Node F)) (acc : Prop' F), (∀ a ∈ as, a.stdProperties.a.length ≤ a.size) →
        (Node.stdProperties.addProps acc as).a.length ≤ acc.a.length + Node.size.total as := by
      intro as
      induction as with
      | nil => intro acc _; simp [Node.stdProperties.addProps, Node.size.total]
      | cons a as iha =>
        intro acc h
        simp only [Node.stdProperties.addProps, Node.size.total]
        refine (iha _ fun x hx => h x (by simp [hx])).trans ?_
        have h1 := h a (by simp)
        have h2 := foldl_length (f := fun m (e : Node F × F) => addToN m e.1 e.2) (fun m x => addToN_length m _ _) a.stdProperties.a acc.a
        simp only
        omega
    have := key args ⟨true, [], zero⟩ ih
    simp only [List.length_nil, Nat.zero_add] at this
    simp only [Node.stdProperties, Node.size]
    omega

theorem cells_nodeComponents {H : HashOrder} (e : Node F) : Within (e.stdComponents H) (componentCells e.size) (fun _ => True) := by
  unfold Node.stdComponents
  have hk := keys_length e
  refine .ite (fun _ => ?_) fun _ => ?_
  · refine (within_iter H _).bind (c2 := e.size) (fun es hes => ?_) ?_
    have h1 := within_mapL (c := 1) (f := fun kv : Node F × F => M.bind (newConst kv.2) fun k => M.pure (kv.1, k))
      (fun kv => (cells_newConst kv.2 (Nat.le_refl 1)).bind (fun k _ => .pure (c := 0) trivial) (Nat.le_refl _)) es
    exact (h1.le (d := e.size) (by omega)).bind (c2 := 0) (fun g _ => .pure trivial) (Nat.le_refl _)
    · unfold componentCells
      have : e.size ≤ derivsCells e.size e.size := by
        unfold derivsCells
        have : e.size * 1 ≤ e.size * (1 + e.size * placeCells e.size) := Nat.mul_le_mul_left _ (by omega)
        omega
      omega
  · refine (within_iter H _).bind (c2 := derivsCells e.size e.size + e.size * derivsCells e.size (derivBound e.size)) (fun vs hvs => ?_) (by unfold componentCells; omega)
    rw [List.length_map] at hvs
    have hle : vs.length ≤ e.size := by omega
    exact (((cells_derivatives e vs).le (derivsCells_mono hle (Nat.le_refl _))).post (size_derivatives e vs) (Nat.le_refl _)).bind (fun ds hds =>
      ((cells_hessLoop (d := derivBound e.size) (k := e.size) (fun p hp => (hds p hp).trans (deriv_le_bound p.1 e)) vs hle).le (Nat.mul_le_mul_right _ hle)).bind
        (fun gh _ => .pure (c := 0) trivial) (Nat.le_refl _)) (Nat.le_refl _)

theorem cells_subN (a b : Node F) : Within (subN a b) (2 * b.size + 2) (fun _ => True) := by
  unfold subN
  exact (cells_sMul negOne b).bind (fun nb _ => cells_addN a nb) (Nat.le_refl _)

theorem cells_newVar (s : String) (k : VarKind) : Within (newVar (F := F) s k) 1 (fun r => r.size = 1) := by
  intro n r m h
  rw [newVar_eq] at h; cases h; exact ⟨by omega, rfl⟩

theorem cells_constrComponents {H : HashOrder} {c : Constraint F} {s : Nat} (hl : c.lhs.size ≤ s) (hr : c.rhs.size ≤ s) (arow jrow : Nat) :
    Within (c.stdComponents H arow jrow) (rowCells s) (fun _ => True) := by
  unfold Constraint.stdComponents
  refine ((cells_subN c.lhs c.rhs).post (size_subN c.lhs c.rhs) (d := 2 * s + 2) (by omega)).bind (c2 := componentCells (4 * s + 7) + 6) (fun exp hexp => ?_) (by unfold rowCells; omega)
  refine ((cells_nodeComponents exp).le (componentCells_mono (t := 4 * s + 7) (by omega))).bind (c2 := 6) (fun comp _ => ?_) (Nat.le_refl _)
  simp only
  split
  · split <;> exact .pure trivial
  · refine .ite (fun _ => ?_) fun _ => ?_
    · split
      · exact (within_iter H _).bind (c2 := 0) (fun es _ => .pure trivial) (by omega)
      · exact (cells_newVar _ _).bind (c2 := 1) (fun s _ => (within_iter H _).bind (c2 := 0) (fun es _ => .pure trivial) (by omega)) (by omega)
    · split
      · exact .pure trivial
      · exact (cells_newVar _ _).bind (c2 := 5) (fun v hv => ((cells_subN comp.phi v).le (d := 4) (by omega)).bind (c2 := 1) (fun f _ =>
          (cells_newConst negOne (Nat.le_refl 1)).bind (c2 := 0) (fun m1 _ => .pure trivial) (by omega)) (by omega)) (by omega)

theorem cells_constrLoop {H : HashOrder} {s : Nat} (cs : List (Constraint F)) : ∀ st : ConstrComp F × Nat × Nat, (∀ c ∈ cs, c.lhs.size ≤ s ∧ c.rhs.size ≤ s) →
    Within (constrLoop H st cs) (cs.length * rowCells s) (fun _ => True) := by
  induction cs with
  | nil => intro st _; exact .pure trivial
  | cons c cs ih =>
    intro st hc
    simp only [constrLoop, List.length_cons, Nat.succ_mul]
    exact (cells_constrComponents (hc c (by simp)).1 (hc c (by simp)).2 _ _).bind (fun r _ => ih _ fun c hc' => hc c (by simp [hc'])) (by omega)

theorem cells_modelComponents {H : HashOrder} {m : Model F} {s : Nat} (hm : m.SizeIn s) :
    Within (m.stdComponents H) ((m.constraints.length + 1) * rowCells s) (fun _ => True) := by
  unfold Model.stdComponents
  have hobj : Within (m.objComponents H) (rowCells s) (fun _ => True) := by
    unfold Model.objComponents rowCells
    cases ho : m.objective with
    | empty =>
      exact ((cells_newConst _ (Nat.le_refl 1)).post (size_newConst zero (s := 1) (w := 1) (by omega) (by omega)) (Nat.le_refl _)).bind (fun e he =>
        (cells_nodeComponents e).le (componentCells_mono (t := 4 * s + 7) (by have := he.1; omega))) (by omega)
    | minimize f => exact (cells_nodeComponents f).le ((componentCells_mono (t := 4 * s + 7) (by have := hm.1 f (.inl ho); omega)).trans (by omega))
    | maximize f =>
      have hf := hm.1 f (.inr ho)
      exact ((cells_negN f).post (size_negN f) (d := 2 * s) (by omega)).bind (fun e he =>
        (cells_nodeComponents e).le (componentCells_mono (t := 4 * s + 7) (by have := he.1; have := width_size f; omega))) (by omega)
  refine hobj.bind (fun obj _ => (cells_constrLoop m.constraints _ hm.2).bind (fun r _ => .pure (c := 0) trivial) (Nat.le_refl _)) (by rw [Nat.succ_mul]; omega)

theorem within_ofR {α : Type} {r : R α} : Within (M.ofR r) 0 (fun _ => True) := by
  intro n a m h
  rw [M.ofR_ok] at h
  exact ⟨by omega, trivial⟩

theorem cells_problem {H : HashOrder} {m : Model F} {s : Nat} (hm : m.SizeIn s) :
    Within (m.stdProblem H) ((m.constraints.length + 1) * rowCells s + 5) (fun _ => True) := by
  unfold Model.stdProblem
  exact (cells_modelComponents hm).bind (c2 := 5) (fun c _ => (within_iter H _).bind (c2 := 4) (fun _ _ => (within_iter H _).bind (c2 := 3) (fun _ _ => (within_iter H _).bind (c2 := 2)
    (fun _ _ => (within_iter H _).bind (c2 := 1) (fun _ _ => (within_iter H _).bind (c2 := 0) (fun _ _ => within_ofR) (by omega)) (by omega)) (by omega)) (by omega)) (by omega)) (by omega)

theorem cells_solve {H : HashOrder} {m : Model F} {s : Nat} (hm : m.SizeIn s) (solver : SolverFn F) :
    Within (m.solve H solver) ((m.constraints.length + 1) * rowCells s + 10) (fun _ => True) := by
  unfold Model.solve
  refine (cells_problem (m := { m with finalPrimals := [], finalDuals := [], solverStatus := none }) hm).bind (c2 := 5) (fun sp _ => within_ofR.bind (c2 := 5) (fun r _ => ?_) (by omega))
    (by simp only; omega)
  split
  · exact .pure trivial
  · refine (within_iter H _).bind (c2 := 4) (fun _ _ => within_ofR.bind (c2 := 4) (fun _ _ => (within_iter H _).bind (c2 := 3) (fun _ _ => within_ofR.bind (c2 := 3) (fun _ _ =>
      (within_iter H _).bind (c2 := 2) (fun _ _ => within_ofR.bind (c2 := 2) (fun _ _ => (within_iter H _).bind (c2 := 1) (fun _ _ => within_ofR.bind (c2 := 1) (fun _ _ =>
      (within_iter H _).bind (c2 := 0) (fun _ _ => within_ofR.bind (c2 := 0) (fun _ _ => .pure trivial) (by omega)) (by omega)) (by omega)) (by omega)) (by omega)) (by omega)) (by omega)) (by omega)) (by omega)) (by omega)

end

end Verif
