import Verif.Spec.IpoptMem
import Verif.Proofs.Ipopt2

/-! # The callbacks at the level of memory do what those of `Code/Ipopt.lean` do -/

namespace Verif

variable {F : Type} {α : Type}

/-! ## Raw accesses -/

@[simp] theorem U.lift_ok (a : α) : U.lift (.ok a) = .ok a := rfl
@[simp] theorem U.lift_error (p : Panic) : U.lift (.error p : R α) = .error (.panic p) := rfl
@[simp] theorem U.ok_bind {β : Type} (a : α) (f : α → U β) : ((.ok a : U α) >>= f) = f a := rfl
@[simp] theorem U.error_bind {β : Type} (e : Fault) (f : α → U β) : ((.error e : U α) >>= f) = .error e := rfl

theorem rawStore_mid (d r : List α) (a v : α) : rawStore (d ++ a :: r) d.length v = .ok (d ++ v :: r) := by
  simp [rawStore]

theorem rawSlice_zero {x : List α} {n : Nat} (h : n ≤ x.length) : rawSlice x 0 n = .ok (x.take n) := by
  simp [rawSlice, h]

theorem rawSlice_ok {x : List α} {k n : Nat} (h : k + n ≤ x.length) : rawSlice x k n = .ok ((x.drop k).take n) := by
  simp [rawSlice, h]

theorem rawCopy_ok {s d r : List α} {n : Nat} (hs : n ≤ s.length) (hr : n ≤ r.length) :
    rawCopy s (d ++ r) d.length n = .ok (d ++ s.take n ++ r.drop n) := by
  rw [rawCopy, if_pos ⟨hs, by simp [hr]⟩]
  simp [List.drop_append]

theorem rawCopy_zero {s r : List α} {n : Nat} (hs : n ≤ s.length) (hr : n ≤ r.length) :
    rawCopy s r 0 n = .ok (s.take n ++ r.drop n) := by
  have := rawCopy_ok (d := []) hs hr
  simpa using this

/-! ## The loops -/

theorem foldU_values {vs : List F} : ∀ {d r : List F}, vs.length ≤ r.length →
    foldU storeValue (d.length, d ++ r) vs = .ok (d.length + vs.length, d ++ vs ++ r.drop vs.length) := by
  induction vs with
  | nil => intro d r _; simp [foldU]
  | cons v vs ih =>
    intro d r h
    cases r with
    | nil => simp at h
    | cons a r =>
      simp only [List.length_cons, Nat.add_le_add_iff_right] at h
      have := ih (d := d ++ [v]) (r := r) h
      simp only [List.length_append, List.length_cons, List.length_nil, List.append_assoc, List.cons_append, List.nil_append] at this
      simp only [foldU, storeValue, rawStore_mid, U.ok_bind, this, List.append_assoc, List.cons_append, List.length_cons,
        List.drop_succ_cons]
      congr 2
      omega

/-- All row and column numbers fit into an `i32`. -/
def AllSmall (items : List (Nat × Nat × F)) : Prop := ∀ t ∈ items, t.1 < 2 ^ 31 ∧ t.2.1 < 2 ^ 31

theorem toI32_ok {n : Nat} (h : n < 2 ^ 31) : toI32 n = .ok (n : Int) := if_pos h
theorem toI32_error {n : Nat} (h : ¬ n < 2 ^ 31) : toI32 n = .error .unwrap := if_neg h

theorem toI32s_error {ns : List Nat} (h : ¬ ∀ n ∈ ns, n < 2 ^ 31) : toI32s ns = .error .unwrap := by
  induction ns with
  | nil => exact absurd (by simp) h
  | cons n ns ih =>
    by_cases h1 : n < 2 ^ 31
    · have : ¬ ∀ n ∈ ns, n < 2 ^ 31 := fun h2 => h (by
        intro k hk
        rcases List.mem_cons.1 hk with rfl | hk
        exacts [h1, h2 k hk])
      simp only [toI32s, toI32_ok h1, Verif.R.ok_bind, ih this]
      rfl
    · simp only [toI32s, toI32_error h1]
      rfl

theorem foldU_pattern {items : List (Nat × Nat × F)} (hs : AllSmall items) : ∀ {d e r s : List Int}, e.length = d.length → items.length ≤ r.length →
    items.length ≤ s.length →
    foldU storePattern (d.length, d ++ r, e ++ s) items =
      .ok (d.length + items.length, d ++ (items.map fun t => (t.1 : Int)) ++ r.drop items.length,
        e ++ (items.map fun t => (t.2.1 : Int)) ++ s.drop items.length) := by
  induction items with
  | nil => intro d e r s _ _ _; simp [foldU]
  | cons t items ih =>
    intro d e r s he hr hs'
    cases r with
    | nil => simp at hr
    | cons a r =>
    cases s with
    | nil => simp at hs'
    | cons b s =>
      simp only [List.length_cons, Nat.add_le_add_iff_right] at hr hs'
      obtain ⟨h1, h2⟩ := hs t (by simp)
      have e2 : rawStore (e ++ b :: s) d.length (t.2.1 : Int) = .ok (e ++ (t.2.1 : Int) :: s) := by
        rw [← he, rawStore_mid]
      have := ih (fun u hu => hs u (by simp [hu])) (d := d ++ [(t.1 : Int)]) (e := e ++ [(t.2.1 : Int)]) (r := r) (s := s) (by simp [he]) hr hs'
      simp only [List.length_append, List.length_cons, List.length_nil, List.append_assoc, List.cons_append, List.nil_append] at this
      simp only [foldU, storePattern, toI32_ok h1, toI32_ok h2, U.lift_ok, U.ok_bind, rawStore_mid, e2, zero_add, this, List.append_assoc,
        List.cons_append, List.length_cons, List.drop_succ_cons, List.map_cons]
      congr 2
      omega

theorem foldU_pattern_error {items : List (Nat × Nat × F)} (hs : ¬ AllSmall items) : ∀ {d e r s : List Int}, e.length = d.length →
    items.length ≤ r.length → items.length ≤ s.length →
    foldU storePattern (d.length, d ++ r, e ++ s) items = .error (.panic .unwrap) := by
  induction items with
  | nil => exact absurd (by simp [AllSmall]) hs
  | cons t items ih =>
    intro d e r s he hr hs'
    cases r with
    | nil => simp at hr
    | cons a r =>
    cases s with
    | nil => simp at hs'
    | cons b s =>
      simp only [List.length_cons, Nat.add_le_add_iff_right] at hr hs'
      by_cases h1 : t.1 < 2 ^ 31
      · by_cases h2 : t.2.1 < 2 ^ 31
        · have h3 : ¬ AllSmall items := fun h3 => hs (by
            intro u hu
            rcases List.mem_cons.1 hu with rfl | hu
            exacts [⟨h1, h2⟩, h3 u hu])
          have e2 : rawStore (e ++ b :: s) d.length (t.2.1 : Int) = .ok (e ++ (t.2.1 : Int) :: s) := by
            rw [← he, rawStore_mid]
          have := ih h3 (d := d ++ [(t.1 : Int)]) (e := e ++ [(t.2.1 : Int)]) (r := r) (s := s) (by simp [he]) hr hs'
          simp only [List.length_append, List.length_cons, List.length_nil, List.append_assoc, List.cons_append, List.nil_append] at this
          simp only [foldU, storePattern, toI32_ok h1, toI32_ok h2, U.lift_ok, U.ok_bind, rawStore_mid, e2, zero_add, this]
        · simp only [foldU, storePattern, toI32_ok h1, toI32_error h2, U.lift_ok, U.lift_error, U.ok_bind, U.error_bind, rawStore_mid]
      · simp only [foldU, storePattern, toI32_error h1, U.lift_error, U.error_bind]

set_option linter.unusedSectionVars false

variable [FloatOps F]

/-- The pattern of two matrices, in both models. -/
theorem writePattern_mem {m1 m2 : Coo F} (h1 : m1.WF) (h2 : m2.WF) {ir jc : List Int} (hi : m1.nnz + m2.nnz ≤ ir.length) (hj : m1.nnz + m2.nnz ≤ jc.length) :
    (writePattern m1 m2 = .error .unwrap ∧ writePatternMem m1 m2 ir jc = .error (.panic .unwrap)) ∨
    ∃ a, writePattern m1 m2 = .ok a ∧ a.ok = true ∧ a.values = [] ∧ a.irow.length = m1.nnz + m2.nnz ∧ a.jcol.length = m1.nnz + m2.nnz ∧
      writePatternMem m1 m2 ir jc = .ok (a.irow ++ ir.drop a.irow.length, a.jcol ++ jc.drop a.jcol.length) := by
  have l1 := h1.triplets_length
  have l2 := h2.triplets_length
  have key : ∀ items : List (Nat × Nat × F), AllSmall items → (toI32s (items.map fun t => t.1) = .ok (items.map fun t => (t.1 : Int))) ∧
      toI32s (items.map fun t => t.2.1) = .ok (items.map fun t => (t.2.1 : Int)) := by
    intro items hs
    constructor
    · rw [toI32s_ok (by intro n hn; obtain ⟨t, ht, rfl⟩ := List.mem_map.1 hn; exact (hs t ht).1), List.map_map]; rfl
    · rw [toI32s_ok (by intro n hn; obtain ⟨t, ht, rfl⟩ := List.mem_map.1 hn; exact (hs t ht).2), List.map_map]; rfl
  have bad : ∀ items : List (Nat × Nat × F), ¬ AllSmall items → toI32s (items.map fun t => t.1) = .error .unwrap ∨
      (toI32s (items.map fun t => t.1) = .ok (items.map fun t => (t.1 : Int)) ∧ toI32s (items.map fun t => t.2.1) = .error .unwrap) := by
    intro items hs
    by_cases h : ∀ n ∈ items.map (fun t => t.1), n < 2 ^ 31
    · refine .inr ⟨?_, toI32s_error fun h' => hs fun t ht => ⟨h _ (List.mem_map_of_mem ht), h' _ (List.mem_map_of_mem (f := fun t : Nat × Nat × F => t.2.1) ht)⟩⟩
      rw [toI32s_ok h, List.map_map]; rfl
    · exact .inl (toI32s_error h)
  by_cases s1 : AllSmall m1.triplets
  · have f1 := foldU_pattern s1 (d := []) (e := []) (r := ir) (s := jc) rfl (by omega) (by omega)
    simp only [List.length_nil, List.nil_append, Nat.zero_add] at f1
    have e0 : (List.map (fun t => ((t.1 : Nat) : Int)) m1.triplets).length = m1.triplets.length := by simp
    by_cases s2 : AllSmall m2.triplets
    · right
      have f2 := foldU_pattern s2 (d := m1.triplets.map fun t => (t.1 : Int)) (e := m1.triplets.map fun t => (t.2.1 : Int))
        (r := ir.drop m1.triplets.length) (s := jc.drop m1.triplets.length) (by simp) (by simp; omega) (by simp; omega)
      rw [e0] at f2
      refine ⟨⟨true, [], (m1.triplets.map fun t => (t.1 : Int)) ++ m2.triplets.map fun t => (t.1 : Int),
        (m1.triplets.map fun t => (t.2.1 : Int)) ++ m2.triplets.map fun t => (t.2.1 : Int)⟩,
        by simp only [writePattern, Coo.drain h1, Coo.drain h2, Verif.R.ok_bind, (key _ s1).1, (key _ s1).2, (key _ s2).1, (key _ s2).2], rfl, rfl,
        by simp [l1, l2], by simp [l1, l2], ?_⟩
      simp only [writePatternMem, Coo.drain h1, Coo.drain h2, U.lift_ok, U.ok_bind, f1, f2]
      simp [List.drop_drop]
    · left
      have f2 := foldU_pattern_error s2 (d := m1.triplets.map fun t => (t.1 : Int)) (e := m1.triplets.map fun t => (t.2.1 : Int))
        (r := ir.drop m1.triplets.length) (s := jc.drop m1.triplets.length) (by simp) (by simp; omega) (by simp; omega)
      rw [e0] at f2
      constructor
      · rcases bad _ s2 with h | ⟨h, h'⟩
        · simp only [writePattern, Coo.drain h1, Coo.drain h2, Verif.R.ok_bind, (key _ s1).1, (key _ s1).2, h]; rfl
        · simp only [writePattern, Coo.drain h1, Coo.drain h2, Verif.R.ok_bind, (key _ s1).1, (key _ s1).2, h, h']; rfl
      · simp only [writePatternMem, Coo.drain h1, Coo.drain h2, U.lift_ok, U.ok_bind, f1, f2, U.error_bind]
  · left
    have f1 := foldU_pattern_error s1 (d := []) (e := []) (r := ir) (s := jc) rfl (by omega) (by omega)
    simp only [List.length_nil, List.nil_append] at f1
    constructor
    · rcases bad _ s1 with h | ⟨h, h'⟩
      · simp only [writePattern, Coo.drain h1, Verif.R.ok_bind, h]; rfl
      · simp only [writePattern, Coo.drain h1, Verif.R.ok_bind, h, h']; rfl
    · simp only [writePatternMem, Coo.drain h1, U.lift_ok, U.ok_bind, f1, U.error_bind]

theorem writeValues_mem {f : F → F} {m1 m2 : Coo F} (h1 : m1.WF) (h2 : m2.WF) {vs : List F} (hv : m1.nnz + m2.nnz ≤ vs.length) :
    writeValuesMem f m1 m2 vs =
      .ok (((m1.triplets.map fun t => f t.2.2) ++ m2.triplets.map fun t => t.2.2) ++
        vs.drop ((m1.triplets.map fun t => f t.2.2) ++ m2.triplets.map fun t => t.2.2).length) := by
  have l1 := h1.triplets_length
  have l2 := h2.triplets_length
  have f1 := foldU_values (vs := m1.triplets.map fun t => f t.2.2) (d := []) (r := vs) (by simp; omega)
  have f2 := foldU_values (vs := m2.triplets.map fun t => t.2.2) (d := m1.triplets.map fun t => f t.2.2) (r := vs.drop m1.triplets.length) (by simp; omega)
  simp only [List.length_nil, List.nil_append, Nat.zero_add, List.length_map] at f1 f2
  simp only [writeValuesMem, Coo.drain h1, Coo.drain h2, U.lift_ok, U.ok_bind, f1, f2]
  simp [List.drop_drop]

/-! ## The invariant -/

theorem foldR_ind {β γ : Type} {f : β → γ → R β} (I : β → Prop) (hs : ∀ s a s', I s → f s a = .ok s' → I s') :
    ∀ (l : List γ) (b r : β), I b → foldR f b l = .ok r → I r := by
  intro l
  induction l with
  | nil => intro b r hb h; cases h; exact hb
  | cons a l ih =>
    intro b r hb h
    rw [foldR_cons_ok] at h
    obtain ⟨s, h1, h2⟩ := h
    exact ih s r (hs b a s hb h1) h2

structure MemInv (q0 q : Minlp F) : Prop where
  ops : ∃ ops, runProb q0 ops = .ok q
  a : q.a = q0.a
  b : q.b = q0.b
  gphi : q.buf.gphi.length = q0.buf.gphi.length
  f : q.buf.f.length = q0.buf.f.length
  hphi : q.buf.hphi.WF
  nnzH : q.buf.hphi.nnz = q0.buf.hphi.nnz
  j : q.buf.j.WF
  nnzJ : q.buf.j.nnz = q0.buf.j.nnz
  comb : q.hcomb.WF
  nnzC : q.hcomb.nnz = q0.hcomb.nnz

namespace MemInv
variable {q0 q q' : Minlp F}

theorem refl (h : q0.Sized) : MemInv q0 q0 := ⟨⟨[], rfl⟩, rfl, rfl, rfl, rfl, h.hphi, rfl, h.j, rfl, h.comb, rfl⟩

theorem nx (h : MemInv q0 q) : q.nx = q0.nx := by rw [Minlp.nx, h.a]; rfl
theorem na (h : MemInv q0 q) : q.na = q0.na := by rw [Minlp.na, h.b]; rfl
theorem nf (h : MemInv q0 q) : q.nf = q0.nf := h.f

theorem evaluate (h : MemInv q0 q) (hk : q0.KeepsSizes) {x : List F} (hx : x.length = q.nx) (he : q.evaluate x = .ok q') : MemInv q0 q' := by
  obtain ⟨ops, ho⟩ := h.ops
  obtain ⟨h1, h2, h3, h4, h5, h6⟩ := hk ops q ho x q' (by rw [hx, h.nx]) he
  have h0 := he
  rw [Minlp.evaluate, R.bind_ok_iff] at he
  obtain ⟨buf, hb, he⟩ := he
  cases he
  exact ⟨⟨ops ++ [.evaluate x], runProb_append ho (by simp [runProb, foldR, ProbOp.exec, h0])⟩, h.a, h.b, h1, h2, h3, h4, h5, h6, h.comb, h.nnzC⟩

theorem combineH (h : MemInv q0 q) {nu : List F} (he : q.combineH nu = .ok q') : MemInv q0 q' := by
  obtain ⟨ops, ho⟩ := h.ops
  have h0 := he
  have key : ∃ d : List F, d.length = q.hcomb.data.length ∧ q' = { q with hcomb := { q.hcomb with data := d } } := by
    rw [Minlp.combineH, R.bind_ok_iff] at he
    obtain ⟨-, -, he⟩ := he
    rw [R.bind_ok_iff] at he
    obtain ⟨r, hr, he⟩ := he
    cases he
    refine ⟨r.1, ?_, rfl⟩
    refine foldR_ind (fun s : List F × Nat => s.1.length = q.hcomb.data.length) ?_ _ _ _ rfl hr
    intro s hn s' hs h1
    refine foldR_ind (fun s : List F × Nat => s.1.length = q.hcomb.data.length) ?_ _ _ _ hs h1
    intro t v t' ht h2
    rw [R.bind_ok_iff] at h2
    obtain ⟨d, hd, h2⟩ := h2
    cases h2
    rw [setIdx_ok] at hd
    obtain ⟨-, rfl⟩ := hd
    simpa using ht
  obtain ⟨d, hd, rfl⟩ := key
  refine ⟨⟨ops ++ [.combineH nu], runProb_append ho (by simp [runProb, foldR, ProbOp.exec, h0])⟩, h.a, h.b, h.gphi, h.f, h.hphi, h.nnzH, h.j, h.nnzJ, ?_, h.nnzC⟩
  have := h.comb
  exact ⟨this.1, by simpa [hd] using this.2⟩

theorem evalNew (h : MemInv q0 q) (hk : q0.KeepsSizes) {x : List F} {newX : Int} (hx : newX = 1 → q.nx ≤ x.length) :
    (∃ p, evalIfNew q newX x = .error p ∧ evalIfNewU q newX x = .error (.panic p)) ∨
    ∃ q', evalIfNew q newX x = .ok q' ∧ evalIfNewU q newX x = .ok q' ∧ MemInv q0 q' := by
  unfold evalIfNew evalIfNewU
  split
  · rename_i hn
    have hn : newX = 1 := by simpa using hn
    rw [rawSlice_zero (hx hn), U.ok_bind]
    cases he : q.evaluate (x.take q.nx) with
    | error p => exact .inl ⟨p, rfl, rfl⟩
    | ok q' => exact .inr ⟨q', rfl, rfl, h.evaluate hk (by simp [hx hn]) he⟩
  · exact .inr ⟨q, rfl, rfl, h⟩

end MemInv

/-- The result of a call at the level of memory, from that in `Code/Ipopt.lean`. -/
def MemCall.Agrees (q0 q : Minlp F) (c : MemCall F) : Prop :=
  (∃ p, c.toCall.exec q = .error p ∧ c.exec q = .error (.panic p)) ∨
  ∃ q' a, c.toCall.exec q = .ok (q', a) ∧ c.exec q = .ok (q', c.after a) ∧ MemInv q0 q' ∧
    a.values.length ≤ c.room ∧ a.irow.length ≤ c.room ∧ a.jcol.length ≤ c.room

theorem MemInv.agrees {q0 q : Minlp F} (hs : q0.Sized) (hk : q0.KeepsSizes) (h : MemInv q0 q) (c : MemCall F) (hc : c.Fits) : c.Agrees q0 q := by
  have refuse : ∀ {c : MemCall F}, c.toCall.exec q = .ok (q, .refuse) → c.exec q = .ok (q, ⟨false, c.values, c.irow, c.jcol⟩) → c.Agrees q0 q := by
    intro c h1 h2
    refine .inr ⟨q, .refuse, h1, ?_, h, by simp [Answer.refuse], by simp [Answer.refuse], by simp [Answer.refuse]⟩
    rw [h2]
    simp [MemCall.after, Answer.refuse]
  cases c with
  | f n x newX out data =>
    obtain ⟨hx, ho⟩ := hc
    cases x with
    | none => exact refuse rfl rfl
    | some x =>
    cases out with
    | none => exact refuse (by simp [MemCall.toCall, Call.exec, evalFCb]) rfl
    | some out =>
    cases data with
    | false => exact refuse (by simp [MemCall.toCall, Call.exec, evalFCb]) rfl
    | true =>
    by_cases hn : n = q.nx
    · subst hn
      have hx := hx x rfl
      have ho := ho out rfl
      simp only [MemCall.Agrees, MemCall.toCall, Call.exec, evalFCb, MemCall.exec, evalFMem]
      rcases h.evalNew hk (x := x) (newX := newX) (fun _ => by omega) with ⟨p, h1, h2⟩ | ⟨q', h1, h2, h3⟩
      · exact .inl ⟨p, by simp [h1], by simp [h2]⟩
      · refine .inr ⟨q', ⟨true, [q'.buf.phi], [], []⟩, by simp [h1], ?_, h3, by simp [MemCall.room], by simp, by simp⟩
        cases out with
        | nil => simp at ho
        | cons o out => simp [h2, rawStore, MemCall.after, MemCall.values, MemCall.irow, MemCall.jcol]
    · exact refuse (by simp [MemCall.toCall, Call.exec, evalFCb, hn]) (by simp [MemCall.exec, evalFMem, hn, MemCall.values, MemCall.irow, MemCall.jcol])
  | gradF n x newX out data =>
    obtain ⟨hx, ho⟩ := hc
    cases x with
    | none => exact refuse rfl rfl
    | some x =>
    cases out with
    | none => exact refuse (by simp [MemCall.toCall, Call.exec, evalGradFCb]) rfl
    | some out =>
    cases data with
    | false => exact refuse (by simp [MemCall.toCall, Call.exec, evalGradFCb]) rfl
    | true =>
    by_cases hn : n = q.nx
    · subst hn
      have hx := hx x rfl
      have ho := ho out rfl
      simp only [MemCall.Agrees, MemCall.toCall, Call.exec, evalGradFCb, MemCall.exec, evalGradFMem]
      rcases h.evalNew hk (x := x) (newX := newX) (fun _ => by omega) with ⟨p, h1, h2⟩ | ⟨q', h1, h2, h3⟩
      · exact .inl ⟨p, by simp [h1], by simp [h2]⟩
      · have e1 : q'.nx = q.nx := by rw [h3.nx, h.nx]
        have e2 : q'.buf.gphi.length = q.nx := by rw [h3.gphi, hs.gphi, h.nx]
        have e3 := rawCopy_zero (s := q'.buf.gphi) (r := out) (n := q'.nx) (by omega) (by omega)
        refine .inr ⟨q', ⟨true, q'.buf.gphi.take q'.nx, [], []⟩, by simp [h1], ?_, h3, by simp [MemCall.room]; omega, by simp, by simp⟩
        simp only [h2, U.ok_bind, e3, MemCall.after, MemCall.values, MemCall.irow, MemCall.jcol]
        simp [e1, e2]
    · exact refuse (by simp [MemCall.toCall, Call.exec, evalGradFCb, hn]) (by simp [MemCall.exec, evalGradFMem, hn, MemCall.values, MemCall.irow, MemCall.jcol])
  | g n x newX m out data =>
    obtain ⟨hx, ho⟩ := hc
    cases x with
    | none => exact refuse rfl rfl
    | some x =>
    cases out with
    | none => exact refuse (by simp [MemCall.toCall, Call.exec, evalGCb]) rfl
    | some out =>
    cases data with
    | false => exact refuse (by simp [MemCall.toCall, Call.exec, evalGCb]) rfl
    | true =>
    by_cases hn : n = q.nx
    · by_cases hm : m = (q.na + q.nf : Nat)
      · subst hn hm
        have hx := hx x rfl
        have ho := ho out rfl
        have hx' : q.nx ≤ x.length := by omega
        have ho' : q.na + q.nf ≤ out.length := by omega
        simp only [MemCall.Agrees, MemCall.toCall, Call.exec, evalGCb, MemCall.exec, evalGMem, rawSlice_zero hx', U.ok_bind]
        have hnew := h.evalNew hk (x := x) (newX := newX) (fun _ => by omega)
        have e0 : evalIfNewU q newX x = evalIfNewS q newX (x.take q.nx) := by
          unfold evalIfNewU evalIfNewS
          rw [rawSlice_zero hx', U.ok_bind]
        rw [e0] at hnew
        rcases hnew with ⟨p, h1, h2⟩ | ⟨q', h1, h2, h3⟩
        · exact .inl ⟨p, by simp [h1], by simp [h2]⟩
        · have e1 : q'.nx = q.nx := by rw [h3.nx, h.nx]
          have e4 : q'.na = q.na := by rw [h3.na, h.na]
          have e5 : q'.nf = q.nf := by rw [h3.nf, h.nf]
          simp only [h1, h2, U.ok_bind, Verif.R.ok_bind, e1]
          cases ha : q'.a.mulVec (x.take q.nx) with
          | error p => exact .inl ⟨p, by simp [ha], by simp [ha]⟩
          | ok ax =>
            by_cases hl : ax.length = q'.b.length
            · have hz : ((ax.zip q'.b).map fun e => e.1 -. e.2).length = q'.na := by simp [hl, Minlp.na]
              have e6 : q'.buf.f.length = q'.nf := rfl
              refine .inr ⟨q', ⟨true, ((ax.zip q'.b).map fun e => e.1 -. e.2).take q'.na ++ q'.buf.f.take q'.nf, [], []⟩, by simp [ha, assertR, hl], ?_, h3,
                ?_, by simp, by simp⟩
              · have c1 := rawCopy_zero (s := (ax.zip q'.b).map fun e => e.1 -. e.2) (r := out) (n := q'.na) (by omega) (by omega)
                have c2 := rawCopy_ok (s := q'.buf.f) (d := ((ax.zip q'.b).map fun e => e.1 -. e.2).take q'.na) (r := out.drop q'.na) (n := q'.nf) (by omega)
                  (by simp; omega)
                have hz' : (((ax.zip q'.b).map fun e => e.1 -. e.2).take q'.na).length = q'.na := by simp only [List.length_take, hz]; omega
                rw [hz'] at c2
                simp only [ha, hl, assertR, U.lift_ok, U.ok_bind, beq_self_eq_true, if_true, c1, c2, MemCall.after, MemCall.values, MemCall.irow, MemCall.jcol,
                  List.length_append, hz']
                simp [List.drop_drop, e6]
              · simp only [List.length_append, List.length_take, MemCall.room]
                omega
            · exact .inl ⟨.assert, by simp [ha, assertR, hl], by simp [ha, assertR, hl]⟩
      · rw [Nat.cast_add] at hm
        exact refuse (by simp [MemCall.toCall, Call.exec, evalGCb, hn, hm])
          (by simp [MemCall.exec, evalGMem, hn, hm, MemCall.values, MemCall.irow, MemCall.jcol])
    · exact refuse (by simp [MemCall.toCall, Call.exec, evalGCb, hn]) (by simp [MemCall.exec, evalGMem, hn, MemCall.values, MemCall.irow, MemCall.jcol])
  | jacG n x newX m nele irow jcol values data =>
    obtain ⟨hx, hi, hj, hv⟩ := hc
    cases data with
    | false => exact refuse (by simp [MemCall.toCall, Call.exec, evalJacGCb]) rfl
    | true =>
    by_cases hn : n = q.nx
    case neg =>
      exact refuse (by simp [MemCall.toCall, Call.exec, evalJacGCb, hn]) (by simp [MemCall.exec, evalJacGMem, hn, MemCall.values, MemCall.irow, MemCall.jcol])
    by_cases hm : m = (q.na + q.nf : Nat)
    case neg =>
      rw [Nat.cast_add] at hm
      exact refuse (by simp [MemCall.toCall, Call.exec, evalJacGCb, hm]) (by simp [MemCall.exec, evalJacGMem, hm, MemCall.values, MemCall.irow, MemCall.jcol])
    by_cases he : nele = (q.a.nnz + q.buf.j.nnz : Nat)
    case neg =>
      rw [Nat.cast_add] at he
      exact refuse (by simp [MemCall.toCall, Call.exec, evalJacGCb, he]) (by simp [MemCall.exec, evalJacGMem, he, MemCall.values, MemCall.irow, MemCall.jcol])
    subst hn hm he
    have ha : q.a.WF := by rw [h.a]; exact hs.a
    cases values with
    | none =>
      cases irow with
      | none =>
        refine refuse ?_ ?_ <;> simp [MemCall.toCall, Call.exec, evalJacGCb, MemCall.exec, evalJacGMem, MemCall.values, MemCall.irow, MemCall.jcol]
      | some ir =>
      cases jcol with
      | none =>
        refine refuse ?_ ?_ <;> simp [MemCall.toCall, Call.exec, evalJacGCb, MemCall.exec, evalJacGMem, MemCall.values, MemCall.irow, MemCall.jcol]
      | some jc =>
        have hi := hi ir rfl
        have hj := hj jc rfl
        rcases writePattern_mem ha h.j (ir := ir) (jc := jc) (by omega) (by omega) with ⟨h1, h2⟩ | ⟨a, h1, h2, h3, h4, h5, h6⟩
        · exact .inl ⟨.unwrap, by simp [MemCall.toCall, Call.exec, evalJacGCb, h1], by simp [MemCall.exec, evalJacGMem, h2]⟩
        · refine .inr ⟨q, a, by simp [MemCall.toCall, Call.exec, evalJacGCb, h1], ?_, h, by simp [h3], by simp only [MemCall.room]; omega, by simp only [MemCall.room]; omega⟩
          simp [MemCall.exec, evalJacGMem, h6, MemCall.after, MemCall.values, MemCall.irow, MemCall.jcol, h2]
    | some vs =>
      have hv := hv vs rfl
      by_cases hxn : newX = 1 ∧ x = none
      · obtain ⟨rfl, rfl⟩ := hxn
        refine refuse ?_ ?_ <;> simp [MemCall.toCall, Call.exec, evalJacGCb, MemCall.exec, evalJacGMem, MemCall.values, MemCall.irow, MemCall.jcol]
      · obtain ⟨x', hx', hx1⟩ : ∃ x', (if (newX == 1) = true then x else some []) = some x' ∧ (newX = 1 → q.nx ≤ x'.length) := by
          by_cases h1 : newX = 1
          · cases x with
            | none => exact absurd ⟨h1, rfl⟩ hxn
            | some x => exact ⟨x, by simp [h1], fun _ => by have := hx x rfl; omega⟩
          · exact ⟨[], by simp [h1], fun h2 => absurd h2 h1⟩
        simp only [MemCall.Agrees, MemCall.toCall, Call.exec, evalJacGCb, MemCall.exec, evalJacGMem, hx']
        rcases h.evalNew hk hx1 with ⟨p, h1, h2⟩ | ⟨q', h1, h2, h3⟩
        · exact .inl ⟨p, by simp [h1], by simp [h2]⟩
        · have ha' : q'.a.WF := by rw [h3.a]; exact hs.a
          have n1 : q'.a.nnz = q.a.nnz := by rw [h3.a, h.a]
          have n2 : q'.buf.j.nnz = q.buf.j.nnz := by rw [h3.nnzJ, h.nnzJ]
          have w := writeValues_mem (f := id) ha' h3.j (vs := vs) (by omega)
          refine .inr ⟨q', ⟨true, (q'.a.triplets.map fun t => t.2.2) ++ q'.buf.j.triplets.map fun t => t.2.2, [], []⟩,
            by simp [h1, Coo.drain ha', Coo.drain h3.j], ?_, h3, ?_, by simp, by simp⟩
          · simp [h2, w, MemCall.after, MemCall.values, MemCall.irow, MemCall.jcol]
          · simp only [List.length_append, List.length_map, ha'.triplets_length, h3.j.triplets_length, MemCall.room]
            omega
  | h n x newX s m lambda newLambda nele irow jcol values data =>
    obtain ⟨hx, hl, hi, hj, hv⟩ := hc
    cases data with
    | false => exact refuse (by simp [MemCall.toCall, Call.exec, evalHCb]) rfl
    | true =>
    by_cases hn : n = q.nx
    case neg =>
      exact refuse (by simp [MemCall.toCall, Call.exec, evalHCb, hn]) (by simp [MemCall.exec, evalHMem, hn, MemCall.values, MemCall.irow, MemCall.jcol])
    by_cases hm : m = (q.na + q.nf : Nat)
    case neg =>
      rw [Nat.cast_add] at hm
      exact refuse (by simp [MemCall.toCall, Call.exec, evalHCb, hm]) (by simp [MemCall.exec, evalHMem, hm, MemCall.values, MemCall.irow, MemCall.jcol])
    by_cases he : nele = (q.buf.hphi.nnz + q.hcomb.nnz : Nat)
    case neg =>
      rw [Nat.cast_add] at he
      exact refuse (by simp [MemCall.toCall, Call.exec, evalHCb, he]) (by simp [MemCall.exec, evalHMem, he, MemCall.values, MemCall.irow, MemCall.jcol])
    subst hn hm he
    cases values with
    | none =>
      cases irow with
      | none =>
        refine refuse ?_ ?_ <;> simp [MemCall.toCall, Call.exec, evalHCb, MemCall.exec, evalHMem, MemCall.values, MemCall.irow, MemCall.jcol]
      | some ir =>
      cases jcol with
      | none =>
        refine refuse ?_ ?_ <;> simp [MemCall.toCall, Call.exec, evalHCb, MemCall.exec, evalHMem, MemCall.values, MemCall.irow, MemCall.jcol]
      | some jc =>
        have hi := hi ir rfl
        have hj := hj jc rfl
        rcases writePattern_mem h.hphi h.comb (ir := ir) (jc := jc) (by omega) (by omega) with ⟨h1, h2⟩ | ⟨a, h1, h2, h3, h4, h5, h6⟩
        · exact .inl ⟨.unwrap, by simp [MemCall.toCall, Call.exec, evalHCb, h1], by simp [MemCall.exec, evalHMem, h2]⟩
        · refine .inr ⟨q, a, by simp [MemCall.toCall, Call.exec, evalHCb, h1], ?_, h, by simp [h3], by simp only [MemCall.room]; omega, by simp only [MemCall.room]; omega⟩
          simp [MemCall.exec, evalHMem, h6, MemCall.after, MemCall.values, MemCall.irow, MemCall.jcol, h2]
    | some vs =>
      have hv := hv vs rfl
      by_cases hxn : newX = 1 ∧ x = none
      · obtain ⟨rfl, rfl⟩ := hxn
        refine refuse ?_ ?_ <;> simp [MemCall.toCall, Call.exec, evalHCb, MemCall.exec, evalHMem, MemCall.values, MemCall.irow, MemCall.jcol]
      obtain ⟨x', hx', hx1⟩ : ∃ x', (if (newX == 1) = true then x else some []) = some x' ∧ (newX = 1 → q.nx ≤ x'.length) := by
        by_cases h1 : newX = 1
        · cases x with
          | none => exact absurd ⟨h1, rfl⟩ hxn
          | some x => exact ⟨x, by simp [h1], fun _ => by have := hx x rfl; omega⟩
        · exact ⟨[], by simp [h1], fun h2 => absurd h2 h1⟩
      simp only [MemCall.Agrees, MemCall.toCall, Call.exec, evalHCb, MemCall.exec, evalHMem, hx']
      rcases h.evalNew hk hx1 with ⟨p, h1, h2⟩ | ⟨q', h1, h2, h3⟩
      · exact .inl ⟨p, by simp [h1], by simp [h2]⟩
      have e4 : q'.na = q.na := by rw [h3.na, h.na]
      have e5 : q'.nf = q.nf := by rw [h3.nf, h.nf]
      by_cases hln : newLambda = 1 ∧ lambda = none
      · obtain ⟨rfl, rfl⟩ := hln
        refine .inr ⟨q', .refuse, by simp [h1], ?_, h3, by simp [Answer.refuse], by simp [Answer.refuse], by simp [Answer.refuse]⟩
        simp [h2, MemCall.after, MemCall.values, MemCall.irow, MemCall.jcol, Answer.refuse]
      obtain ⟨l', hl', hl1⟩ : ∃ l', (if (newLambda == 1) = true then lambda else some []) = some l' ∧ (newLambda = 1 → q.na + q.nf ≤ l'.length) := by
        by_cases h1 : newLambda = 1
        · cases lambda with
          | none => exact absurd ⟨h1, rfl⟩ hln
          | some l => exact ⟨l, by simp [h1], fun _ => by have := hl l rfl; omega⟩
        · exact ⟨[], by simp [h1], fun h2 => absurd h2 h1⟩
      have hcomb : (∃ p, (if (newLambda == 1) = true then q'.combineH ((l'.drop q'.na).take q'.nf) else .ok q') = .error p ∧
          combineIfNewU q' newLambda l' = .error (.panic p)) ∨
          ∃ q2, (if (newLambda == 1) = true then q'.combineH ((l'.drop q'.na).take q'.nf) else .ok q') = .ok q2 ∧
          combineIfNewU q' newLambda l' = .ok q2 ∧ MemInv q0 q2 := by
        unfold combineIfNewU
        split
        · rename_i hn
          have hn : newLambda = 1 := by simpa using hn
          have := hl1 hn
          rw [rawSlice_ok (by omega), U.ok_bind]
          cases hc : q'.combineH ((l'.drop q'.na).take q'.nf) with
          | error p => exact .inl ⟨p, rfl, rfl⟩
          | ok q2 => exact .inr ⟨q2, rfl, rfl, h3.combineH hc⟩
        · exact .inr ⟨q', rfl, rfl, h3⟩
      simp only [hl', h1, h2]
      rcases hcomb with ⟨p, c1, c2⟩ | ⟨q2, c1, c2, c3⟩
      · exact .inl ⟨p, by by_cases hnl : newLambda = 1 <;> simp_all, by simp [h2, c2]⟩
      have n1 : q2.buf.hphi.nnz = q.buf.hphi.nnz := by rw [c3.nnzH, h.nnzH]
      have n2 : q2.hcomb.nnz = q.hcomb.nnz := by rw [c3.nnzC, h.nnzC]
      by_cases hw : newX = 1 ∨ newLambda = 1
      · have w := writeValues_mem (f := fun v => s *. v) c3.hphi c3.comb (vs := vs) (by omega)
        refine .inr ⟨q2, ⟨true, (q2.buf.hphi.triplets.map fun t => s *. t.2.2) ++ q2.hcomb.triplets.map fun t => t.2.2, [], []⟩,
          by by_cases hnl : newLambda = 1 <;> simp_all [Coo.drain c3.hphi, Coo.drain c3.comb], ?_, c3, ?_, by simp, by simp⟩
        · simp [hl', h2, c2, hw, w, MemCall.after, MemCall.values, MemCall.irow, MemCall.jcol]
        · simp only [List.length_append, List.length_map, c3.hphi.triplets_length, c3.comb.triplets_length, MemCall.room]
          omega
      · refine .inr ⟨q2, ⟨true, [], [], []⟩, by by_cases hnl : newLambda = 1 <;> simp_all, ?_, c3, by simp, by simp, by simp⟩
        simp [hl', h2, c2, hw, MemCall.after, MemCall.values, MemCall.irow, MemCall.jcol]

end Verif
