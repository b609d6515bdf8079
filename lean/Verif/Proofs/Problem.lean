import Verif.Proofs.MulVec
import Verif.Spec.Problem

/-! # Problems -/

namespace Verif

set_option linter.unusedSectionVars false
set_option linter.unusedSimpArgs false

section
variable {α β γ : Type}

theorem foldR_flatMap {f : β → α → R β} {g : γ → List α} {b : β} (l : List γ) :
    foldR (fun s c => foldR f s (g c)) b l = foldR f b (l.flatMap g) := by
  induction l generalizing b with
  | nil => rfl
  | cons c l ih =>
    rw [List.flatMap_cons, foldR_append]
    simp only [foldR]
    cases foldR f b (g c) <;> simp [ih]

theorem setIdx_mid (d r : List α) (a v : α) : setIdx (d ++ a :: r) d.length v = .ok (d ++ v :: r) := by
  rw [setIdx_of_lt (by simp)]
  simp

/-- Writing successive positions of a vector. -/
theorem fill_loop (vals data : List α) (h : vals.length ≤ data.length) :
    foldR (fun (s : List α × Nat) (v : α) => do
      let d ← setIdx s.1 s.2 v
      .ok (d, s.2 + 1)) (data, 0) vals = .ok (vals ++ data.drop vals.length, vals.length) := by
  obtain ⟨s, h1, h2⟩ := foldR_inv (l := vals) (b := (data, 0))
    (f := fun (s : List α × Nat) (v : α) => (do
      let d ← setIdx s.1 s.2 v
      .ok (d, s.2 + 1) : R (List α × Nat)))
    (fun pre s => s = (pre ++ data.drop pre.length, pre.length)) (by simp)
    (by
      rintro pre v post s hl rfl
      have hlt : pre.length < data.length := by
        have := congrArg List.length hl
        simp at this
        omega
      rw [List.drop_eq_getElem_cons hlt]
      simp only [setIdx_mid, R.ok_bind]
      exact ⟨_, rfl, by simp⟩)
  rw [h1, h2]

end

variable {F : Type} [FloatOps F]

theorem copyPattern_loop (sh : Nat × Nat) (items : List (Nat × Nat × F)) (d : List F) :
    foldR copyPattern (⟨sh, List.replicate items.length 0, List.replicate items.length 0, d⟩, 0) items =
      .ok (⟨sh, items.map (fun t => t.1), items.map (fun t => t.2.1), d⟩, items.length) := by
  obtain ⟨s, h1, h2⟩ := foldR_inv (l := items)
    (b := ((⟨sh, List.replicate items.length 0, List.replicate items.length 0, d⟩ : Coo F), 0)) (f := copyPattern)
    (fun pre s => s = (⟨sh, pre.map (fun t => t.1) ++ List.replicate (items.length - pre.length) 0,
      pre.map (fun t => t.2.1) ++ List.replicate (items.length - pre.length) 0, d⟩, pre.length)) (by simp)
    (by
      rintro pre v post s hl rfl
      have hlt : pre.length < items.length := by
        have := congrArg List.length hl
        simp at this
        omega
      obtain ⟨k, hk⟩ : ∃ k, items.length - pre.length = k + 1 := ⟨items.length - pre.length - 1, by omega⟩
      have hk' : items.length - (pre ++ [v]).length = k := by simp; omega
      rw [hk, hk']
      have e1 := setIdx_mid (pre.map fun t => t.1) (List.replicate k 0) 0 v.1
      have e2 := setIdx_mid (pre.map fun t => t.2.1) (List.replicate k 0) 0 v.2.1
      rw [List.length_map] at e1 e2
      simp only [copyPattern, Coo.setRowInd, Coo.setColInd, List.replicate_succ, e1, e2, R.ok_bind]
      exact ⟨_, rfl, by simp⟩)
  rw [h1, h2]
  simp

/-- The problem built from consistent data. -/
def Minlp.initial (hphi a : Coo F) (b : List F) (j : Coo F) (h : List (Coo F)) (l u : List F) (p : List Bool)
    (x0 : Option (List F)) (evalFn : EvalFn F) : Minlp F :=
  { x0 := x0
    buf := ⟨zero, List.replicate a.cols zero, hphi, List.replicate j.rows zero, j, h⟩
    a := a, b := b
    hcomb := ⟨(a.cols, a.cols), h.flatMap Coo.rowInds, h.flatMap Coo.colInds, List.replicate (h.flatMap Coo.data).length zero⟩
    l := l, u := u, p := p, evalFn := evalFn }

theorem triplets_rows {m : Coo F} (h : m.WF) : m.triplets.map (fun t => t.1) = m.rowInds := by
  have := h.1
  have := h.2
  rw [Coo.triplets]
  exact List.map_fst_zip (by simp only [List.length_zip]; omega)

theorem triplets_cols {m : Coo F} (h : m.WF) : m.triplets.map (fun t => t.2.1) = m.colInds := by
  have := h.1
  have := h.2
  rw [Coo.triplets, show (fun t : Nat × Nat × F => t.2.1) = Prod.fst ∘ Prod.snd from rfl, ← List.map_map,
    List.map_snd_zip (by simp only [List.length_zip]; omega)]
  exact List.map_fst_zip (by omega)

theorem triplets_vals {m : Coo F} (h : m.WF) : m.triplets.map (fun t => t.2.2) = m.data := by
  have := h.1
  have := h.2
  rw [Coo.triplets, show (fun t : Nat × Nat × F => t.2.2) = Prod.snd ∘ Prod.snd from rfl, ← List.map_map,
    List.map_snd_zip (by simp only [List.length_zip]; omega)]
  exact List.map_snd_zip (by omega)

theorem map_flatMap_wf {α : Type} {h : List (Coo F)} (hw : ∀ hh ∈ h, hh.WF) (g : Nat × Nat × F → α) (k : Coo F → List α)
    (hk : ∀ m : Coo F, m.WF → m.triplets.map g = k m) : (h.flatMap Coo.triplets).map g = h.flatMap k := by
  induction h with
  | nil => rfl
  | cons m h ih =>
    rw [List.flatMap_cons, List.flatMap_cons, List.map_append, hk m (hw m (by simp)), ih fun hh hm => hw hh (by simp [hm])]

theorem nnz_sum {h : List (Coo F)} (hw : ∀ hh ∈ h, hh.WF) : (h.map Coo.nnz).sum = (h.flatMap Coo.triplets).length := by
  rw [List.length_flatMap]
  congr 1
  exact List.map_congr_left fun m hm => (hw m hm).triplets_length.symm

theorem dataLen_sum {h : List (Coo F)} (hw : ∀ hh ∈ h, hh.WF) : (h.flatMap Coo.data).length = (h.flatMap Coo.triplets).length := by
  rw [← map_flatMap_wf hw (fun t => t.2.2) Coo.data fun m hm => triplets_vals hm]
  simp

theorem assertR_bind_ok {b : Bool} {α : Type} {x : R α} {y : α} : (assertR b >>= fun _ => x) = .ok y ↔ b = true ∧ x = .ok y := by
  cases b <;> simp

theorem checkH_loop (nx : Nat) (h : List (Coo F)) :
    foldR (fun (_ : Unit) (hh : Coo F) => do
      assertR (hh.rows == nx)
      assertR (hh.cols == nx)) () h = if ∀ hh ∈ h, hh.rows = nx ∧ hh.cols = nx then .ok () else .error .assert := by
  induction h with
  | nil => simp [foldR]
  | cons m h ih =>
    simp only [foldR]
    by_cases h1 : m.rows = nx
    · by_cases h2 : m.cols = nx
      · have e : ((do assertR (m.rows == nx); assertR (m.cols == nx)) : R Unit) = .ok () := by simp [h1, h2]
        rw [e]
        simp only
        rw [ih]
        simp [h1, h2]
      · have e2 : (m.cols == nx) = false := by simpa using h2
        have e : ((do assertR (m.rows == nx); assertR (m.cols == nx)) : R Unit) = .error .assert := by simp [h1, e2]
        rw [e]
        simp [h2]
    · have e2 : (m.rows == nx) = false := by simpa using h1
      have e : ((do assertR (m.rows == nx); assertR (m.cols == nx)) : R Unit) = .error .assert := by simp [e2]
      rw [e]
      simp [h1]

theorem Minlp.new_ok {hphi a : Coo F} {b : List F} {j : Coo F} {h : List (Coo F)} {l u : List F} {p : List Bool}
    {x0 : Option (List F)} {evalFn : EvalFn F} (hw : ∀ hh ∈ h, hh.WF) (hd : DimsOk hphi a b j h l u p) :
    Minlp.new hphi a b j h l u p x0 evalFn = .ok (Minlp.initial hphi a b j h l u p x0 evalFn) := by
  obtain ⟨⟨d1, d2⟩, d3, d4, d5, d6, d7, d8, d9⟩ := hd
  simp only [Minlp.new, d1, d2, d3, d4, d5, d7, d8, d9, BEq.rfl, assertR_true, R.ok_bind]
  rw [checkH_loop, if_pos d6]
  simp only [R.ok_bind]
  have e1 : foldR (fun (s : Coo F × Nat) (hh : Coo F) => do
      let items ← hh.iter.drain
      foldR copyPattern s items) (Coo.fromNnz (a.cols, a.cols) (h.map Coo.nnz).sum, 0) h =
      foldR copyPattern (Coo.fromNnz (a.cols, a.cols) (h.map Coo.nnz).sum, 0) (h.flatMap Coo.triplets) := by
    rw [← foldR_flatMap]
    exact foldR_congr fun m hm s => by rw [Coo.drain (hw m hm)]; rfl
  rw [e1, nnz_sum hw, Coo.fromNnz, copyPattern_loop]
  simp only [R.ok_bind, Minlp.initial]
  rw [map_flatMap_wf hw _ _ fun m hm => triplets_rows hm, map_flatMap_wf hw _ _ fun m hm => triplets_cols hm, dataLen_sum hw]

theorem Minlp.new_error {hphi a : Coo F} {b : List F} {j : Coo F} {h : List (Coo F)} {l u : List F} {p : List Bool}
    {x0 : Option (List F)} {evalFn : EvalFn F} (hd : ¬ DimsOk hphi a b j h l u p) :
    Minlp.new hphi a b j h l u p x0 evalFn = .error .assert := by
  simp only [Minlp.new, BEq.rfl, assertR_true, R.ok_bind]
  have fail : ∀ {x y : Nat} {α : Type} (k : R α), x ≠ y → (assertR (x == y) >>= fun _ => k) = .error .assert := by
    intro x y α k hxy
    have : (x == y) = false := by simpa using hxy
    simp [this]
  have pass : ∀ {x y : Nat} {α : Type} (k : R α), x = y → (assertR (x == y) >>= fun _ => k) = k := by
    intro x y α k hxy
    simp [hxy]
  by_cases h1 : hphi.cols = a.cols
  swap; · exact fail _ h1
  rw [pass _ h1]
  by_cases h2 : hphi.rows = a.cols
  swap; · exact fail _ h2
  rw [pass _ h2]
  by_cases h3 : b.length = a.rows
  swap; · exact fail _ h3
  rw [pass _ h3]
  by_cases h4 : j.cols = a.cols
  swap; · exact fail _ h4
  rw [pass _ h4]
  by_cases h5 : h.length = j.rows
  swap; · exact fail _ h5
  rw [pass _ h5]
  rw [checkH_loop]
  by_cases h6 : ∀ hh ∈ h, hh.rows = a.cols ∧ hh.cols = a.cols
  swap; · rw [if_neg h6]; rfl
  rw [if_pos h6]
  simp only [R.ok_bind]
  by_cases h7 : l.length = a.cols
  swap; · exact fail _ h7
  rw [pass _ h7]
  by_cases h8 : u.length = a.cols
  swap; · exact fail _ h8
  rw [pass _ h8]
  by_cases h9 : p.length = a.cols
  swap; · exact fail _ h9
  exact absurd ⟨⟨h2, h1⟩, h3, h4, h5, h6, h7, h8, h9⟩ hd

/-! ## combine_h -/

theorem combine_data (q : Minlp F) (nu : List F) :
    foldR (fun (s : List F × Nat) (hn : Coo F × F) =>
      foldR (fun (s : List F × Nat) (val : F) => (do
        let d ← setIdx s.1 s.2 (hn.2 *. val)
        .ok (d, s.2 + 1) : R (List F × Nat))) s hn.1.data) (q.hcomb.data, 0) (q.buf.h.zip nu) =
    foldR (fun (s : List F × Nat) (v : F) => (do
      let d ← setIdx s.1 s.2 v
      .ok (d, s.2 + 1) : R (List F × Nat))) (q.hcomb.data, 0)
      ((q.buf.h.zip nu).flatMap fun hn => hn.1.data.map fun v => hn.2 *. v) := by
  rw [← foldR_flatMap]
  apply foldR_congr
  intro hn _ s
  rw [foldR_map]

/-- What every history of calls keeps. -/
structure ProbInv (h0 : List (Coo F)) (nf : Nat) (q : Minlp F) : Prop where
  hnf : q.nf = nf
  hlen : q.buf.h.length = nf
  wf : ∀ hh ∈ q.buf.h, hh.WF
  pat : q.buf.h.map Coo.rowInds = h0.map Coo.rowInds ∧ q.buf.h.map Coo.colInds = h0.map Coo.colInds
  rows : q.hcomb.rowInds = h0.flatMap Coo.rowInds
  cols : q.hcomb.colInds = h0.flatMap Coo.colInds
  data : q.hcomb.data.length = (q.buf.h.flatMap Coo.data).length
  keeps : KeepsPatterns q.evalFn

theorem length_weighted_data {h : List (Coo F)} {nu : List F} (hl : h.length = nu.length) :
    ((h.zip nu).flatMap fun hn => hn.1.data.map fun v => hn.2 *. v).length = (h.flatMap Coo.data).length := by
  induction h generalizing nu with
  | nil => simp
  | cons m h ih =>
    cases nu with
    | nil => simp at hl
    | cons n nu =>
      simp only [List.zip_cons_cons, List.flatMap_cons, List.length_append, List.length_map]
      rw [ih (by simpa using hl)]

theorem ProbInv.combineH {h0 : List (Coo F)} {nf : Nat} {q : Minlp F} (hi : ProbInv h0 nf q) {nu : List F} (hn : nu.length = nf) :
    q.combineH nu = .ok { q with hcomb := { q.hcomb with
      data := (q.buf.h.zip nu).flatMap fun hn => hn.1.data.map fun v => hn.2 *. v } } := by
  simp only [Minlp.combineH]
  have e : (q.nf == nu.length) = true := by simp [hi.hnf, hn]
  simp only [e, assertR_true, R.ok_bind]
  rw [combine_data]
  have hl := length_weighted_data (h := q.buf.h) (nu := nu) (by rw [hi.hlen, hn])
  rw [fill_loop _ _ (by rw [hl, hi.data])]
  simp only [R.ok_bind]
  rw [hl, ← hi.data, List.drop_length, List.append_nil]

theorem Minlp.combineH_error {q : Minlp F} {nu : List F} (hn : nu.length ≠ q.nf) : q.combineH nu = .error .assert := by
  have e : (q.nf == nu.length) = false := by simpa using Ne.symm hn
  simp [Minlp.combineH, e]

theorem flatMap_congr_map {α β γ : Type} {f : α → List β} {g : γ → List β} {l : List α} {l' : List γ}
    (h : l.map f = l'.map g) : l.flatMap f = l'.flatMap g := by
  rw [List.flatMap_def, List.flatMap_def, h]

/-- Same sparsity pattern. -/
def SamePat (a b : Coo F) : Prop := b.shape = a.shape ∧ b.rowInds = a.rowInds ∧ b.colInds = a.colInds ∧ b.data.length = a.data.length

theorem samePat_map {α : Type} {l l' : List (Coo F)} (h : List.Forall₂ SamePat l l') (g : Coo F → α)
    (hg : ∀ a b, SamePat a b → g b = g a) : l'.map g = l.map g := by
  induction h with
  | nil => rfl
  | cons h _ ih => simp [hg _ _ h, ih]

theorem samePat_wf {l l' : List (Coo F)} (h : List.Forall₂ SamePat l l') (hw : ∀ m ∈ l, m.WF) : ∀ m ∈ l', m.WF := by
  induction h with
  | nil => simp
  | cons h _ ih =>
    rename_i a b _ _ _
    intro m hm
    rcases List.mem_cons.1 hm with hm | hm
    · have ha := hw a (by simp)
      rw [hm]
      exact ⟨by rw [h.2.1, h.2.2.1]; exact ha.1, by rw [h.2.1, h.2.2.2]; exact ha.2⟩
    · exact ih (fun c hc => hw c (by simp [hc])) m hm

theorem ProbInv.step {h0 : List (Coo F)} {nf : Nat} {q q' : Minlp F} (hi : ProbInv h0 nf q) {op : ProbOp F}
    (h : op.exec q = .ok q') : ProbInv h0 nf q' := by
  cases op with
  | evaluate x =>
    simp only [ProbOp.exec, Minlp.evaluate] at h
    rw [R.bind_ok_iff] at h
    obtain ⟨buf, hb, h⟩ := h
    injection h with h
    subst h
    obtain ⟨k1, k2⟩ := hi.keeps _ _ _ hb
    have hrow := samePat_map k2 Coo.rowInds fun a b h => h.2.1
    have hcol := samePat_map k2 Coo.colInds fun a b h => h.2.2.1
    have hdat := samePat_map k2 (fun m => m.data.length) fun a b h => h.2.2.2
    refine ⟨k1.trans hi.hnf, k2.length_eq.symm.trans hi.hlen, samePat_wf k2 hi.wf, ⟨hrow.trans hi.pat.1, hcol.trans hi.pat.2⟩,
      hi.rows, hi.cols, ?_, hi.keeps⟩
    · rw [hi.data]
      simp only [List.length_flatMap]
      rw [hdat]
  | combineH nu =>
    simp only [ProbOp.exec] at h
    by_cases hn : nu.length = nf
    · rw [hi.combineH hn] at h
      injection h with h
      subst h
      refine ⟨hi.hnf, hi.hlen, hi.wf, hi.pat, hi.rows, hi.cols, ?_, hi.keeps⟩
      exact length_weighted_data (by rw [hi.hlen, hn])
    · rw [Minlp.combineH_error (by rw [hi.hnf]; exact hn)] at h
      cases h

theorem ProbInv.run {h0 : List (Coo F)} {nf : Nat} {q q' : Minlp F} (hi : ProbInv h0 nf q) {ops : List (ProbOp F)}
    (h : runProb q ops = .ok q') : ProbInv h0 nf q' := by
  unfold runProb at h
  induction ops generalizing q with
  | nil => simp only [foldR, Except.ok.injEq] at h; exact h ▸ hi
  | cons op ops ih =>
    rw [foldR_cons_ok] at h
    obtain ⟨q1, h1, h2⟩ := h
    exact ih (hi.step h1) h2

theorem ProbInv.initial {hphi a : Coo F} {b : List F} {j : Coo F} {h : List (Coo F)} {l u : List F} {p : List Bool}
    {x0 : Option (List F)} {evalFn : EvalFn F} (hw : ∀ hh ∈ h, hh.WF) (hd : DimsOk hphi a b j h l u p)
    (hk : KeepsPatterns evalFn) : ProbInv h j.rows (Minlp.initial hphi a b j h l u p x0 evalFn) := by
  refine ⟨by simp [Minlp.nf, Minlp.initial], hd.numH, hw, ⟨rfl, rfl⟩, rfl, rfl, ?_, hk⟩
  simp [Minlp.initial]

theorem weighted_triplets {h : List (Coo F)} {nu : List F} (hw : ∀ hh ∈ h, hh.WF) (hl : h.length = nu.length) (sh : Nat × Nat) :
    (⟨sh, h.flatMap Coo.rowInds, h.flatMap Coo.colInds,
      (h.zip nu).flatMap fun hn => hn.1.data.map fun v => hn.2 *. v⟩ : Coo F).triplets = weighted h nu := by
  simp only [Coo.triplets, weighted]
  induction h generalizing nu with
  | nil => simp
  | cons m h ih =>
    cases nu with
    | nil => simp at hl
    | cons n nu =>
      have hm := hw m (by simp)
      simp only [List.zip_cons_cons, List.flatMap_cons]
      rw [List.zip_append (by simp; rw [← hm.1, ← hm.2]), List.zip_append (by simp; rw [← hm.1, ← hm.2]; simp),
        ih (fun hh hh' => hw hh (by simp [hh'])) (by simpa using hl)]
      congr 1
      rw [List.zip_map_right, List.zip_map_right]
      rfl

end Verif
