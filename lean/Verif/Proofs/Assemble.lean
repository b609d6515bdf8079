import Verif.Proofs.Pieces
import Verif.Proofs.Problem

/-! # Assembly of the standard problem -/

set_option linter.unusedSectionVars false
set_option linter.unusedSimpArgs false

namespace Verif

variable {F : Type} [FloatOps F]

theorem mapR_eq {α β : Type} {f : α → R β} {g : α → β} {l : List α} (h : ∀ a ∈ l, f a = .ok (g a)) : mapR f l = .ok (l.map g) := by
  induction l with
  | nil => rfl
  | cons a l ih =>
    simp only [mapR, h a (by simp), R.ok_bind, ih fun a ha => h a (by simp [ha]), List.map_cons]

theorem Coo.new_eq {sh : Nat × Nat} {r c : List Nat} {d : List F} (h1 : r.length = c.length) (h2 : r.length = d.length) :
    Coo.new sh r c d = .ok ⟨sh, r, c, d⟩ := by
  unfold Coo.new
  have e1 : (r.length == c.length) = true := by simp [h1]
  have e2 : (r.length == d.length) = true := by simp [h2]
  rw [e1, e2]; rfl

/-- A matrix with the given entries, values 0. -/
def zeroMat (rows cols : Nat) (es : List (Nat × Nat × Node F)) : Coo F :=
  ⟨(rows, cols), es.map (·.1), es.map (·.2.1), List.replicate es.length zero⟩

theorem zeroCoo_eq (rows cols : Nat) (es : List (Nat × Nat × Node F)) : zeroCoo rows cols es = .ok (zeroMat rows cols es) := by
  unfold zeroCoo
  rw [Coo.new_eq (by simp) (by simp)]; rfl

theorem zeroMat_wf (rows cols : Nat) (es : List (Nat × Nat × Node F)) : (zeroMat rows cols es).WF := by
  simp [zeroMat, Coo.WF]

/-! ### Pure versions -/

/-- Positions of Hessian entries. -/
def hessP (cols : List (Node F)) (es : List (Node F × Node F × Node F)) : List (Nat × Nat × Node F) :=
  es.map fun e => if colOf cols e.1 ≥ colOf cols e.2.1 then (colOf cols e.1, colOf cols e.2.1, e.2.2)
    else (colOf cols e.2.1, colOf cols e.1, e.2.2)

/-- Positions of Jacobian entries. -/
def jacP (cols : List (Node F)) (es : List (Nat × Node F × Node F)) : List (Nat × Nat × Node F) :=
  es.map fun e => (e.1, colOf cols e.2.1, e.2.2)

/-- Linear rows. -/
def linP (cols : List (Node F)) (es : List (Nat × Node F × F)) : List (Nat × Nat × F) :=
  es.map fun e => (e.1, colOf cols e.2.1, e.2.2)

/-- The tightest of the bounds on `x`, and the constraint that set it last. -/
def tightest (tighter : F → F → Bool) (init : F) (es : List (Node F × F × Constraint F)) (x : Node F) : F × Option (Constraint F) :=
  es.foldl (fun s e => if e.1.ptrEq x && tighter e.2.1 s.1 then (e.2.1, some e.2.2) else s) (init, none)

/-- The value of `x` in a map, or `d`. -/
def valAt {β : Type} (m : List (Node F × β)) (d : β) (x : Node F) : β := (getN m x).getD d

variable {l : Level} {h : Heap F} {cols : List (Node F)}

theorem hessEntries_eq (hc : ColsOk l h cols) {es : List (Node F × Node F × Node F)} (he : ∀ e ∈ es, e.1 ∈ cols ∧ e.2.1 ∈ cols) :
    hessEntries cols.zipIdx es = .ok (hessP cols es) := by
  unfold hessEntries hessP
  refine mapR_eq fun e h => ?_
  rw [hc.indexOf (he e h).1, hc.indexOf (he e h).2]; rfl

theorem jacEntries_eq (hc : ColsOk l h cols) {es : List (Nat × Node F × Node F)} (he : ∀ e ∈ es, e.2.1 ∈ cols) :
    jacEntries cols.zipIdx es = .ok (jacP cols es) := by
  unfold jacEntries jacP
  refine mapR_eq fun e h => ?_
  rw [hc.indexOf (he e h)]; rfl

theorem colOf_any {x : Node F} (hx : cols.any (fun y => y.ptrEq x) = true) :
    ∃ h : colOf cols x < cols.length, cols[colOf cols x].ptrEq x = true := by
  have hlt : colOf cols x < cols.length := by
    unfold colOf
    rw [List.findIdx_lt_length]
    simpa using List.any_eq_true.1 hx
  exact ⟨hlt, List.findIdx_getElem (p := fun y : Node F => y.ptrEq x) (xs := cols) (w := hlt)⟩

/-- Overwriting the column of one variable. -/
theorem set_col {β : Type} (hn : NodupP cols) {k : Node F} (hk : cols.any (fun y => y.ptrEq k) = true) (g : Node F → β) (v : β) :
    (cols.map g).set (colOf cols k) v = cols.map fun x => if k.ptrEq x then v else g x := by
  obtain ⟨hlt, hy⟩ := colOf_any hk
  apply List.ext_getElem
  · simp
  · intro i h1 h2
    simp only [List.length_set, List.length_map] at h1
    simp only [List.getElem_set, List.getElem_map]
    by_cases hi : colOf cols k = i
    · subst hi
      have : k.ptrEq cols[colOf cols k] = true := by rw [ptrEq_symm]; exact hy
      simp [this]
    · have : k.ptrEq cols[i] = false := by
        rw [← Bool.not_eq_true]
        intro hc
        have hp := List.pairwise_iff_getElem.1 hn
        have ht := ptrEq_trans hy hc
        rcases Nat.lt_or_gt_of_ne hi with hlt' | hlt'
        · rw [hp _ _ hlt h1 hlt'] at ht; cases ht
        · have := hp _ _ h1 hlt hlt'
          rw [ptrEq_symm] at this
          rw [this] at ht; cases ht
      simp [hi, this]

theorem getN_none_of {β : Type} {m : List (Node F × β)} {x : Node F} (h : ∀ y ∈ keysN m, y.ptrEq x = false) : getN m x = none := by
  cases hg : getN m x with
  | none => rfl
  | some b =>
    obtain ⟨y, hy, hyx⟩ := getN_some_iff hg
    rw [h y (List.mem_map.2 ⟨_, hy, rfl⟩)] at hyx; cases hyx

/-- Writing the entries of a map into the columns of their keys. -/
theorem assign_loop {β : Type} (hn : NodupP cols) (es : List (Node F × β)) (hk : NodupP (keysN es)) (g : Node F → β) :
    foldR (fun (x : List β) (e : Node F × β) =>
      match getN cols.zipIdx e.1 with
      | some i => setIdx x i e.2
      | none => .ok x) (cols.map g) es = .ok (cols.map fun x => valAt es (g x) x) := by
  induction es generalizing g with
  | nil => rfl
  | cons e es ih =>
    obtain ⟨k, v⟩ := e
    have hk' := List.pairwise_cons.1 hk
    have key : (match getN cols.zipIdx k with
        | some i => setIdx (cols.map g) i v
        | none => .ok (cols.map g)) = .ok (cols.map fun x => if k.ptrEq x then v else g x) := by
      rw [getN_zipIdx]
      cases ha : cols.any (fun y => y.ptrEq k)
      · simp only [Bool.false_eq_true, if_false, Except.ok.injEq]
        refine List.map_congr_left fun x hx => ?_
        have : k.ptrEq x = false := by
          rw [← Bool.not_eq_true]
          intro hc
          have : cols.any (fun y => y.ptrEq k) = true := List.any_eq_true.2 ⟨x, hx, by rw [ptrEq_symm]; exact hc⟩
          rw [ha] at this; cases this
        simp [this]
      · obtain ⟨hlt, -⟩ := colOf_any ha
        simp only [if_true, Nat.zero_add]
        rw [setIdx_of_lt (by simpa using hlt), set_col hn ha]
    simp only [foldR, key]
    rw [ih hk'.2]
    congr 1
    refine List.map_congr_left fun x hx => ?_
    unfold valAt
    simp only [getN]
    by_cases hkx : k.ptrEq x = true
    · have : getN es x = none := by
        refine getN_none_of fun y hy => ?_
        rw [← Bool.not_eq_true]
        intro hyx
        have h1 := hk'.1 y hy
        rw [ptrEq_symm] at hyx
        rw [ptrEq_trans hkx hyx] at h1; cases h1
      simp [hkx, this]
    · simp [hkx]

theorem assign_loop' {β : Type} (hc : ColsOk l h cols) (es : List (Node F × β)) (hk : NodupP (keysN es))
    (hin : ∀ e ∈ es, e.1 ∈ cols) (g : Node F → β) :
    foldR (fun (c : List β) (e : Node F × β) => do setIdx c (← indexOf cols.zipIdx e.1) e.2) (cols.map g) es =
      .ok (cols.map fun x => valAt es (g x) x) := by
  rw [← assign_loop hc.nodup es hk g]
  refine foldR_congr fun e he s => ?_
  have := hc.indexOf (hin e he)
  unfold indexOf at this ⊢
  split at this
  · rename_i i hi; simp only [hi]; rfl
  · cases this

theorem getN_perm {β : Type} {m m' : List (Node F × β)} (hp : m.Perm m') (hn : NodupP (keysN m)) (x : Node F) :
    getN m x = getN m' x := by
  induction hp with
  | nil => rfl
  | cons e _ ih =>
    obtain ⟨k, v⟩ := e
    simp only [getN]
    rw [ih (List.pairwise_cons.1 hn).2]
  | swap e1 e2 l =>
    obtain ⟨k1, v1⟩ := e1
    obtain ⟨k2, v2⟩ := e2
    simp only [getN]
    by_cases h1 : k1.ptrEq x = true
    · by_cases h2 : k2.ptrEq x = true
      · have h3 : k2.ptrEq k1 = false := (List.pairwise_cons.1 hn).1 k1 (by simp)
        rw [ptrEq_symm] at h1
        rw [ptrEq_trans h2 h1] at h3; cases h3
      · simp [h1, h2]
    · simp [h1]
  | trans h1 _ ih1 ih2 => exact (ih1 hn).trans (ih2 (hn.perm (h1.map _)))

theorem valAt_perm {β : Type} {m m' : List (Node F × β)} (hp : m.Perm m') (hn : NodupP (keysN m)) (d : β) (x : Node F) :
    valAt m d x = valAt m' d x := by unfold valAt; rw [getN_perm hp hn]

theorem replicate_cols {β : Type} {k : Nat} (hk : k = cols.length) (b : β) : List.replicate k b = cols.map fun _ => b := by
  rw [hk]; simp

/-! ### Bounds -/

/-- Value of a key in a map with numbers as keys. -/
def getNat {β : Type} (m : List (Nat × β)) (k : Nat) : Option β :=
  match m with
  | [] => none
  | (x, b) :: m => if x == k then some b else getNat m k

theorem getNat_insertNat {β : Type} (m : List (Nat × β)) (k : Nat) (v : β) (i : Nat) :
    getNat (insertNat m k v) i = if k = i then some v else getNat m i := by
  induction m with
  | nil => simp [insertNat, getNat]
  | cons e m ih =>
    obtain ⟨x, w⟩ := e
    simp only [insertNat]
    by_cases hx : x = k
    · subst hx
      simp only [beq_self_eq_true, if_true, getNat, beq_iff_eq]
      by_cases hi : x = i <;> simp [hi]
    · have : (x == k) = false := by simpa using hx
      simp only [this, Bool.false_eq_true, if_false, getNat, ih, beq_iff_eq]
      by_cases hi : x = i
      · subst hi
        simp [Ne.symm hx]
      · simp [hi]

theorem insertNat_keys {β : Type} (m : List (Nat × β)) (k : Nat) (v : β) (hn : (m.map Prod.fst).Nodup) :
    ((insertNat m k v).map Prod.fst).Nodup ∧ ∀ i ∈ (insertNat m k v).map Prod.fst, i = k ∨ i ∈ m.map Prod.fst := by
  induction m with
  | nil => simp [insertNat]
  | cons e m ih =>
    obtain ⟨x, w⟩ := e
    simp only [insertNat]
    simp only [List.map_cons, List.nodup_cons] at hn
    by_cases hx : x = k
    · subst hx
      simp only [beq_self_eq_true, if_true, List.map_cons, List.nodup_cons]
      exact ⟨hn, fun i hi => .inr (by simpa using hi)⟩
    · have : (x == k) = false := by simpa using hx
      simp only [this, Bool.false_eq_true, if_false, List.map_cons, List.nodup_cons]
      obtain ⟨i1, i2⟩ := ih hn.2
      refine ⟨⟨fun hm => ?_, i1⟩, fun i hi => ?_⟩
      · rcases i2 x hm with h | h
        · exact hx h
        · exact hn.1 h
      · simp only [List.mem_cons] at hi ⊢
        rcases hi with hi | hi
        · exact .inr (.inl hi)
        · exact (i2 i hi).imp id .inr

theorem getNat_mem {β : Type} {m : List (Nat × β)} (hn : (m.map Prod.fst).Nodup) {i : Nat} {b : β} :
    getNat m i = some b ↔ (i, b) ∈ m := by
  induction m with
  | nil => simp [getNat]
  | cons e m ih =>
    obtain ⟨x, w⟩ := e
    simp only [List.map_cons, List.nodup_cons] at hn
    simp only [getNat, List.mem_cons, Prod.mk.injEq, beq_iff_eq]
    by_cases hx : x = i
    · subst hx
      simp only [if_true, true_and, Option.some.injEq]
      constructor
      · intro h; exact .inl h.symm
      · rintro (h | h)
        · exact h.symm
        · exact absurd (List.mem_map.2 ⟨_, h, rfl⟩) hn.1
    · simp only [hx, if_false, ih hn.2]
      constructor
      · exact .inr
      · rintro (⟨h, _⟩ | h)
        · exact absurd h.symm hx
        · exact h

/-- The record of which constraint sets the bound of which column. -/
structure BndIdx (cols : List (Node F)) (t : Node F → Option (Constraint F)) (m : List (Nat × Constraint F)) : Prop where
  nodup : (m.map Prod.fst).Nodup
  get : ∀ i, getNat m i = (cols[i]?).bind t

theorem bound_loop (hc : ColsOk l h cols) (tighter : F → F → Bool) (init : F) (es : List (Node F × F × Constraint F))
    (hin : ∀ e ∈ es, e.1 ∈ cols)
    (step : List F × List (Nat × Constraint F) → Node F × F × Constraint F → R (List F × List (Nat × Constraint F)))
    (hstep : ∀ s e, step s e = (do
      let i ← indexOf cols.zipIdx e.1
      let cur ← idx s.1 i
      if tighter e.2.1 cur then .ok (← setIdx s.1 i e.2.1, insertNat s.2 i e.2.2) else .ok s)) :
    ∃ m, foldR step (cols.map fun _ => init, []) es = .ok (cols.map fun x => (tightest tighter init es x).1, m) ∧
      BndIdx cols (fun x => (tightest tighter init es x).2) m := by
  obtain ⟨s, h1, h2⟩ := foldR_inv (f := step) (l := es) (b := (cols.map fun _ => init, []))
    (fun pre s => s.1 = cols.map (fun x => (tightest tighter init pre x).1) ∧
      BndIdx cols (fun x => (tightest tighter init pre x).2) s.2)
    ⟨rfl, by simp, by intro i; simp [getNat, tightest]⟩ (by
      rintro pre e post s hl ⟨hs1, hs2⟩
      have hin' := hin e (by rw [hl]; simp)
      obtain ⟨hlt, hget⟩ := hc.col hin'
      have hg : cols[colOf cols e.1] = e.1 := by
        rw [List.getElem?_eq_getElem hlt] at hget; injection hget
      rw [hstep, hc.indexOf hin', R.ok_bind]
      have hidx : idx s.1 (colOf cols e.1) = .ok (tightest tighter init pre e.1).1 := by
        rw [hs1, idx_of_lt (by simpa using hlt)]
        simp [hg]
      rw [hidx, R.ok_bind]
      have htight : ∀ x, tightest tighter init (pre ++ [e]) x =
          if e.1.ptrEq x && tighter e.2.1 (tightest tighter init pre x).1 then (e.2.1, some e.2.2) else tightest tighter init pre x := by
        intro x; simp [tightest, List.foldl_append]
      by_cases ht : tighter e.2.1 (tightest tighter init pre e.1).1 = true
      · refine ⟨(s.1.set (colOf cols e.1) e.2.1, insertNat s.2 (colOf cols e.1) e.2.2), ?_, ?_, ?_, ?_⟩
        · simp only [ht, if_true]
          rw [setIdx_of_lt (by rw [hs1]; simpa using hlt), R.ok_bind]
        · simp only
          rw [hs1, set_col hc.nodup (List.any_eq_true.2 ⟨e.1, hin', ptrEq_refl _⟩)]
          refine List.map_congr_left fun x hx => ?_
          rw [htight]
          by_cases hex : e.1.ptrEq x = true
          · have := ((hc.good _ hin').ptrEq_iff (hc.good x hx)).1 hex
            subst this
            simp [ptrEq_refl, ht]
          · simp [hex]
        · exact (insertNat_keys _ _ _ hs2.nodup).1
        · intro i
          rw [getNat_insertNat, hs2.get]
          by_cases hi : colOf cols e.1 = i
          · subst hi
            rw [if_pos rfl, hget]
            simp [htight, ptrEq_refl, ht]
          · rw [if_neg hi]
            cases hx : cols[i]? with
            | none => rfl
            | some x =>
              simp only [Option.bind_some, htight]
              have : e.1.ptrEq x = false := by
                rw [← Bool.not_eq_true]
                intro hex
                obtain ⟨hlt', hx'⟩ := List.getElem?_eq_some_iff.1 hx
                have := ((hc.good _ hin').ptrEq_iff (hc.good x (by rw [← hx']; exact List.getElem_mem hlt'))).1 hex
                rw [this, ← hx', hc.col_get hlt'] at hi
                exact hi rfl
              simp [this]
      · have hno : ∀ x ∈ cols, tightest tighter init (pre ++ [e]) x = tightest tighter init pre x := by
          intro x hx
          rw [htight]
          by_cases hex : e.1.ptrEq x = true
          · have := ((hc.good _ hin').ptrEq_iff (hc.good x hx)).1 hex
            rw [← this]
            simp [ht]
          · simp [hex]
        refine ⟨s, by simp [ht], ?_, hs2.nodup, ?_⟩
        · rw [hs1]
          exact List.map_congr_left fun x hx => by rw [hno x hx]
        · intro i
          rw [hs2.get]
          cases hx : cols[i]? with
          | none => rfl
          | some x => simp only [Option.bind_some]; rw [hno x (List.mem_of_getElem? hx)])
  refine ⟨s.2, ?_, h2.2⟩
  rw [h1, ← h2.1]

/-! ### Integer columns -/

theorem int_loop (hc : ColsOk l h cols) {ies : List (Node F × Nat)} (hp : ies.Perm cols.zipIdx) :
    foldR (fun (s : List Bool × Nat) (e : Node F × Nat) =>
      if e.1.isInteger then do .ok (← setIdx s.1 e.2 true, s.2 + 1) else .ok s) (cols.map fun _ => false, 0) ies =
      .ok (cols.map Node.isInteger, cols.countP Node.isInteger) := by
  have hmem : ∀ e ∈ ies, cols[e.2]? = some e.1 := by
    intro e he
    have := hp.mem_iff.1 he
    rw [List.mem_zipIdx_iff_getElem?] at this
    exact this
  have hnd : (ies.map Prod.snd).Nodup := by
    rw [(hp.map Prod.snd).nodup_iff]
    rw [List.zipIdx_map_snd]
    exact List.nodup_range'
  obtain ⟨s, h1, h2⟩ := foldR_inv (l := ies) (b := (cols.map fun _ => false, 0))
    (f := fun (s : List Bool × Nat) (e : Node F × Nat) =>
      if e.1.isInteger then (do .ok (← setIdx s.1 e.2 true, s.2 + 1) : R _) else .ok s)
    (fun pre s => s.1 = tab cols.length (fun i => pre.any fun e => e.2 == i && e.1.isInteger) ∧
      s.2 = pre.countP fun e => e.1.isInteger)
    ⟨by
      apply List.ext_getElem
      · simp
      · intro i h1 h2; simp [tab], rfl⟩
    (by
      rintro pre e post s hl ⟨hs1, hs2⟩
      have he := hmem e (by rw [hl]; simp)
      have hlt : e.2 < cols.length := (List.getElem?_eq_some_iff.1 he).1
      by_cases hi : e.1.isInteger = true
      · refine ⟨_, by simp only [hi, if_true]; rw [hs1, setIdx_tab hlt, R.ok_bind], ?_, ?_⟩
        · refine tab_congr fun i _ => ?_
          by_cases h : i = e.2
          · subst h; simp [hi]
          · rw [Function.update_of_ne h]
            have : (e.2 == i) = false := by simpa using fun h' => h h'.symm
            simp [this]
        · simp [hs2, hi]
      · refine ⟨s, by simp [hi], ?_, ?_⟩
        · rw [hs1]; refine tab_congr fun i _ => by simp [hi]
        · simp [hs2, hi])
  rw [h1]
  congr 1
  refine Prod.ext ?_ ?_
  · rw [h2.1]
    apply List.ext_getElem
    · simp
    · intro i hi1 hi2
      simp only [tab_length] at hi1
      rw [tab_getElem, List.getElem_map]
      cases hb : (cols[i]).isInteger
      · rw [← Bool.not_eq_true]
        intro hany
        obtain ⟨e, he, hx⟩ := List.any_eq_true.1 hany
        simp only [Bool.and_eq_true, beq_iff_eq] at hx
        have := hmem e he
        rw [hx.1, List.getElem?_eq_getElem hi1] at this
        injection this with this
        rw [this, hx.2] at hb; cases hb
      · refine List.any_eq_true.2 ⟨(cols[i], i), hp.mem_iff.2 ?_, by simp [hb]⟩
        rw [List.mem_zipIdx_iff_getElem?]
        exact List.getElem?_eq_getElem hi1
  · rw [h2.2, hp.countP_eq]
    clear hp hmem hnd h1 h2 hc
    suffices H : ∀ k, (cols.zipIdx k).countP (fun e => e.1.isInteger) = cols.countP Node.isInteger from H 0
    induction cols with
    | nil => intro k; rfl
    | cons x cols ih =>
      intro k
      rw [List.zipIdx_cons, List.countP_cons, List.countP_cons, ih]

/-! ### Values of the variables at a point -/

/-- The assignment that gives each column its entry of `xs`. -/
def pointEnv (cols : List (Node F)) (xs : List F) : Env F := fun k =>
  if cols.any (fun y => y.id == k) then xs[cols.findIdx (fun y => y.id == k)]? else none

theorem pointEnv_col (hc : ColsOk l h cols) {x : Node F} (hx : x ∈ cols) (xs : List F) :
    pointEnv cols xs x.id = xs[colOf cols x]? := by
  have h1 : cols.any (fun y => y.id == x.id) = true := List.any_eq_true.2 ⟨x, hx, by simp⟩
  have h2 : cols.findIdx (fun y => y.id == x.id) = colOf cols x := by
    unfold colOf
    have : ∀ y ∈ cols, (y.id == x.id) = y.ptrEq x := by
      intro y hy
      rw [Bool.eq_iff_iff, (hc.good y hy).ptrEq_iff (hc.good x hx), beq_iff_eq]
      exact ⟨(hc.good y hy).eq_of_id (hc.good x hx), fun h => by rw [h]⟩
    clear h1 hx hc
    induction cols with
    | nil => rfl
    | cons y cols ih =>
      rw [List.findIdx_cons, List.findIdx_cons, this y (by simp), ih fun y hy => this y (by simp [hy])]
  unfold pointEnv
  rw [if_pos h1, h2]

theorem pointEnv_other {xs : List F} {k : Nat} (hk : ∀ y ∈ cols, y.id ≠ k) : pointEnv cols xs k = none := by
  have h1 : cols.any (fun y => y.id == k) = false := by
    rw [← Bool.not_eq_true]
    intro h
    obtain ⟨y, hy, he⟩ := List.any_eq_true.1 h
    exact hk y hy (by simpa using he)
  unfold pointEnv
  simp [h1]

theorem evalEnv_eq (hc : ColsOk l h cols) {ves : List (Node F × Nat)} (hp : ves.Perm cols.zipIdx) {xs : List F}
    (hx : cols.length ≤ xs.length) : evalEnv ves xs = .ok (pointEnv cols xs) := by
  have hmem : ∀ e ∈ ves, cols[e.2]? = some e.1 := by
    intro e he
    have := hp.mem_iff.1 he
    rw [List.mem_zipIdx_iff_getElem?] at this
    exact this
  have hcol : ∀ e ∈ ves, e.1 ∈ cols ∧ e.2 = colOf cols e.1 ∧ e.2 < xs.length := by
    intro e he
    have := hmem e he
    have hm := List.mem_of_getElem? this
    obtain ⟨hlt, hg⟩ := List.getElem?_eq_some_iff.1 this
    exact ⟨hm, by rw [← hg, hc.col_get hlt], by omega⟩
  obtain ⟨s, h1, h2⟩ := foldR_inv (l := ves) (b := (fun _ => none : Env F))
    (f := fun (σ : Env F) (e : Node F × Nat) => (do
      let t ← idx xs e.2
      .ok (fun k => if k = e.1.id then some t else σ k) : R (Env F)))
    (fun pre σ => ∀ k, σ k = if pre.any (fun e => e.1.id == k) then pointEnv cols xs k else none)
    (by simp)
    (by
      rintro pre e post σ hl hσ
      obtain ⟨c1, c2, c3⟩ := hcol e (by rw [hl]; simp)
      refine ⟨_, by rw [idx_of_lt c3, R.ok_bind], fun k => ?_⟩
      by_cases hk : k = e.1.id
      · subst hk
        simp only [if_true, List.any_append, List.any_cons, BEq.rfl, Bool.true_or, Bool.or_true]
        rw [pointEnv_col hc c1, ← c2, List.getElem?_eq_getElem c3]
      · have : (e.1.id == k) = false := by simpa using fun h => hk h.symm
        simp only [hk, if_false, hσ k, List.any_append, List.any_cons, List.any_nil, this, Bool.or_false])
  unfold evalEnv
  rw [h1]
  congr 1
  funext k
  rw [h2 k]
  split
  · rfl
  · rename_i hn
    rw [pointEnv_other]
    intro y hy hyk
    apply hn
    rw [List.any_eq_true]
    obtain ⟨i, hi, hiy⟩ := List.getElem_of_mem hy
    refine ⟨(y, i), hp.mem_iff.2 ?_, by simp [hyk]⟩
    rw [List.mem_zipIdx_iff_getElem?]
    simp only
    rw [List.getElem?_eq_getElem hi, hiy]

end Verif
