import Verif.Model.DataLoader
import Verif.Lemmas.Tensor
import Mathlib.Data.List.Perm.Basic
/-! Helper lemmas about the data loader. -/

set_option autoImplicit false

namespace DW.DLL

open DW DW.Spec DW.Tensor DW.DL

variable {α : Type}

theorem onHeap_eq {β : Type} {x : M (Heap α) β} {s : DL α} {r : Out β} {h' : Heap α}
    (h : x s.heap = (r, h')) : onHeap x s = (r, { s with heap := h' }) := by
  unfold onHeap; rw [h]

/-- The descriptor of a view. -/
def viewDesc (shape : Shape) (p : Ptr) : Desc :=
  { initDesc {} shape with data := some p }

theorem ofData_eq {h : Heap α} {shape : Shape} {p : Ptr} (hs : Static shape) (hf : CountFits shape) :
    ofData shape p h = (.ok h.descs.length, { h with descs := h.descs ++ [viewDesc shape p] }) := by
  let h0 : Heap α := { h with descs := h.descs ++ [({} : Desc)] }
  have e : h0.descs[h.descs.length]? = some {} := by simp [h0]
  let h1 : Heap α := { h0 with descs := h0.descs.set h.descs.length (initDesc {} shape) }
  have hd1 : h1.descs[h.descs.length]? = some (initDesc {} shape) := by simp [h1, h0]
  simp only [ofData]
  rw [M.bind_ok (new_apply h), M.bind_ok (init_ok (h := h0) e hs hf), M.bind_ok (desc_some hd1)]
  simp [setDesc, M.bind_apply, h1, h0, viewDesc]

/-- Filling through any descriptor whose elements are valid cells. -/
theorem fill_any {h : Heap α} {v : Handle} {d : Desc} {p : Ptr} (hd : h.descs[v]? = some d)
    (hp : d.data = some p) (hv : ∀ j, j < d.total → (cell? h ⟨p.block, p.off + j⟩).isSome)
    (vs : Nat → α) :
    ∃ h', fill v vs h = (.ok (), h') ∧ SameLayout h h' ∧
      (∀ j, j < d.total → cell? h' ⟨p.block, p.off + j⟩ = some (some (vs j))) ∧
      (∀ q : Ptr, ¬ (q.block = p.block ∧ p.off ≤ q.off ∧ q.off < p.off + d.total) →
        cell? h' q = cell? h q) := by
  cases hn : d.total with
  | zero =>
    refine ⟨h, ?_, .refl h, by omega, fun _ _ => rfl⟩
    simp [fill, M.bind_apply, desc_some hd, hn]
  | succ n =>
    obtain ⟨h', e, l, hf, hfr⟩ := fillLoop_spec p vs (n + 1) 0 h
      (fun j _ hj => hv j (by omega))
    refine ⟨h', ?_, l, fun j hj => hf j (by omega) (by omega), fun q hq => hfr q (by omega)⟩
    simp only [fill, M.bind_apply, desc_some hd, hn, hp]; exact e

/-- `t` has this shape and its own block `b`. -/
structure Ready (h : Heap α) (t : Handle) (shape : Shape) (b : Nat) : Prop where
  ex : ∃ d cells, h.descs[t]? = some d ∧ d.shape = shape ∧ d.strides = calculateStrides shape ∧
    d.data = some ⟨b, 0⟩ ∧ h.blocks[b]? = some (some cells) ∧ (cells.length : Int) = shape.prod

theorem Ready.cell {h : Heap α} {t : Handle} {shape : Shape} {b : Nat} (r : Ready h t shape b) {i : Nat}
    (hi : (i : Int) < shape.prod) : (cell? h ⟨b, i⟩).isSome := by
  obtain ⟨d, cells, h1, h2, h3, h4, h5, h6⟩ := r.ex
  have : i < cells.length := by omega
  simp [cell?, h5, this]

theorem Ready.sameLayout {h h' : Heap α} {t : Handle} {shape : Shape} {b : Nat} (r : Ready h t shape b)
    (l : SameLayout h h') : Ready h' t shape b := by
  obtain ⟨d, cells, h1, h2, h3, h4, h5, h6⟩ := r.ex
  have := l.lens b
  rw [h5] at this
  simp only [Option.map_some, Option.map_eq_some_iff] at this
  obtain ⟨x, hx, cs, rfl, hcs⟩ := this
  exact ⟨d, cs, by rw [l.descs]; exact h1, h2, h3, h4, hx, by omega⟩

theorem slice_eq {h : Heap α} {t : Handle} {d : Desc} {b : Nat} (hd : h.descs[t]? = some d)
    (hp : d.data = some ⟨b, 0⟩) {shape : Shape} (hs : Static shape) (hf : CountFits shape) (off : Nat) :
    slice shape t off h =
      (.ok h.descs.length, { h with descs := h.descs ++ [viewDesc shape ⟨b, off⟩] }) := by
  unfold slice
  have : elemPtr t off h = (.ok ⟨b, off⟩, h) := by
    simp [elemPtr, M.bind_apply, desc_some hd, hp]
  rw [M.bind_ok this, ofData_eq hs hf]

theorem viewDesc_total {shape : Shape} (hs : Static shape) (p : Ptr) :
    ((viewDesc shape p).total : Int) = shape.prod := by
  have := prod_nonneg hs
  simp only [viewDesc, initDesc]
  omega

variable {ds : Dataset α}

/-- One iteration of the filling loop. -/
theorem fillOne_spec {h : Heap α} {X y : Handle} {bn : Nat} {bx by' : Nat}
    (rx : Ready h X (bn :: ds.shapeX) bx) (ry : Ready h y (bn :: ds.shapeY) by') (hb : bx ≠ by')
    (hsx : Static ds.shapeX) (hsy : Static ds.shapeY) (hfx : CountFits ds.shapeX) (hfy : CountFits ds.shapeY)
    {sx sy : Nat} (ex : (sx : Int) = ds.shapeX.prod) (ey : (sy : Int) = ds.shapeY.prod)
    {i : Nat} (hi : i < bn) {idx : Int} (h0 : 0 ≤ idx) (h1 : idx < ds.size) :
    ∃ h', fillOne ds X y sx sy i idx h = (.ok (), h') ∧ SameLayout h h' ∧
      (∀ j, j < sx → cell? h' ⟨bx, i * sx + j⟩ = some (some (ds.x idx j))) ∧
      (∀ j, j < sy → cell? h' ⟨by', i * sy + j⟩ = some (some (ds.y idx j))) ∧
      (∀ q : Ptr, ¬ (q.block = bx ∧ i * sx ≤ q.off ∧ q.off < i * sx + sx) →
        ¬ (q.block = by' ∧ i * sy ≤ q.off ∧ q.off < i * sy + sy) → cell? h' q = cell? h q) := by
  obtain ⟨dx, cx, a1, a2, a3, a4, a5, a6⟩ := rx.ex
  obtain ⟨dy, cy, b1, b2, b3, b4, b5, b6⟩ := ry.ex
  have htx : (viewDesc ds.shapeX ⟨bx, i * sx⟩).total = sx := by
    have := viewDesc_total hsx ⟨bx, i * sx⟩; omega
  have hty : (viewDesc ds.shapeY ⟨by', i * sy⟩).total = sy := by
    have := viewDesc_total hsy ⟨by', i * sy⟩; omega
  have inX : ∀ j, j < sx → (i * sx + j : Nat) < cx.length := by
    intro j hj
    have h1 : i * sx + sx ≤ bn * sx := by
      calc i * sx + sx = (i + 1) * sx := by ring
        _ ≤ bn * sx := Nat.mul_le_mul_right _ (by omega)
    have h2 : (cx.length : Int) = bn * sx := by rw [a6, List.prod_cons, ← ex]
    have h3 : ((bn * sx : Nat) : Int) = bn * sx := by push_cast; ring
    omega
  have inY : ∀ j, j < sy → (i * sy + j : Nat) < cy.length := by
    intro j hj
    have h1 : i * sy + sy ≤ bn * sy := by
      calc i * sy + sy = (i + 1) * sy := by ring
        _ ≤ bn * sy := Nat.mul_le_mul_right _ (by omega)
    have h2 : (cy.length : Int) = bn * sy := by rw [b6, List.prod_cons, ← ey]
    have h3 : ((bn * sy : Nat) : Int) = bn * sy := by push_cast; ring
    omega
  -- the two slices
  let hX : Heap α := { h with descs := h.descs ++ [viewDesc ds.shapeX ⟨bx, i * sx⟩] }
  have e1 : slice ds.shapeX X (i * sx) h = (.ok h.descs.length, hX) := slice_eq a1 a4 hsx hfx _
  have hy' : hX.descs[y]? = some dy := by
    simp only [hX]
    rw [List.getElem?_append_left (lt_of_getElem? b1)]; exact b1
  let hY : Heap α := { hX with descs := hX.descs ++ [viewDesc ds.shapeY ⟨by', i * sy⟩] }
  have e2 : slice ds.shapeY y (i * sy) hX = (.ok hX.descs.length, hY) := slice_eq hy' b4 hsy hfy _
  have cY : ∀ q, cell? hY q = cell? h q := fun q => rfl
  have g1 : hY.descs[h.descs.length]? = some (viewDesc ds.shapeX ⟨bx, i * sx⟩) := by
    simp [hY, hX]
  obtain ⟨h2, f1, l1, s1, fr1⟩ := fill_any (p := ⟨bx, i * sx⟩) g1 rfl (by
    intro j hj
    rw [htx] at hj
    rw [cY]
    have := inX j hj
    simp [cell?, a5, this]) (ds.x idx)
  rw [htx] at s1 fr1
  have g2 : h2.descs[hX.descs.length]? = some (viewDesc ds.shapeY ⟨by', i * sy⟩) := by
    rw [l1.descs]; simp [hY]
  obtain ⟨h3, f2, l2, s2, fr2⟩ := fill_any (p := ⟨by', i * sy⟩) g2 rfl (by
    intro j hj
    rw [hty] at hj
    rw [l1.valid, cY]
    have := inY j hj
    simp [cell?, b5, this]) (ds.y idx)
  rw [hty] at s2 fr2
  have hdesc : h3.descs.take h.descs.length = h.descs := by
    rw [l2.descs, l1.descs]; simp [hY, hX]
  have lY := l1.trans l2
  refine ⟨{ h3 with descs := h3.descs.take h.descs.length }, ?_, ⟨hdesc, lY.valid, lY.len, lY.lens⟩, ?_, ?_, ?_⟩
  · unfold fillOne
    rw [M.bind_ok (M.get_apply h), M.bind_ok e1, M.bind_ok e2]
    have : ds.pull idx h.descs.length hX.descs.length hY = (.ok (), h3) := by
      unfold Dataset.pull
      rw [if_pos ⟨h0, h1⟩, M.bind_ok f1, f2]
    rw [M.bind_ok this]
    rfl
  · intro j hj
    have := fr2 ⟨bx, i * sx + j⟩ (by simp only; intro hh; exact hb hh.1)
    show cell? h3 _ = _
    rw [this]
    exact s1 j hj
  · intro j hj
    exact s2 j hj
  · intro q hq1 hq2
    show cell? h3 _ = _
    rw [fr2 q hq2, fr1 q hq1]
    rfl

/-- The filling loop. -/
theorem fillBatch_spec {X y : Handle} {bn : Nat} {bx by' : Nat} (hb : bx ≠ by')
    (hsx : Static ds.shapeX) (hsy : Static ds.shapeY) (hfx : CountFits ds.shapeX) (hfy : CountFits ds.shapeY)
    {sx sy : Nat} (ex : (sx : Int) = ds.shapeX.prod) (ey : (sy : Int) = ds.shapeY.prod)
    {indices : List Int} (hlen : indices.length = bn) (hidx : ∀ v ∈ indices, 0 ≤ v ∧ v < ds.size) :
    ∀ (n i : Nat) {h : Heap α}, i + n = bn →
      Ready h X (bn :: ds.shapeX) bx → Ready h y (bn :: ds.shapeY) by' →
      ∃ h', fillBatch ds X y sx sy indices i n h = (.ok (), h') ∧ SameLayout h h' ∧
        (∀ k, i ≤ k → ∀ hk : k < indices.length, ∀ j, j < sx →
          cell? h' ⟨bx, k * sx + j⟩ = some (some (ds.x indices[k] j))) ∧
        (∀ k, i ≤ k → ∀ hk : k < indices.length, ∀ j, j < sy →
          cell? h' ⟨by', k * sy + j⟩ = some (some (ds.y indices[k] j))) ∧
        (∀ q : Ptr, (q.block = bx → q.off < i * sx) → (q.block = by' → q.off < i * sy) →
          cell? h' q = cell? h q)
  | 0, i, h, hi, rx, ry => ⟨h, rfl, .refl h, by intro k; omega, by intro k; omega, fun _ _ _ => rfl⟩
  | n + 1, i, h, hi, rx, ry => by
    have hil : i < indices.length := by omega
    obtain ⟨h0, h1⟩ := hidx _ (List.getElem_mem hil)
    obtain ⟨h2, e, l, c1, c2, fr⟩ := fillOne_spec rx ry hb hsx hsy hfx hfy ex ey (i := i) (by omega) h0 h1
    obtain ⟨h3, e', l', c1', c2', fr'⟩ := fillBatch_spec hb hsx hsy hfx hfy ex ey hlen hidx n (i + 1) (by omega)
      (rx.sameLayout l) (ry.sameLayout l)
    have key : ∀ s : Nat, (i + 1) * s = i * s + s := fun s => by ring
    refine ⟨h3, ?_, l.trans l', ?_, ?_, ?_⟩
    · unfold fillBatch
      have : (M.lift (Out.idx indices i) : M (Heap α) Int) h = (.ok indices[i], h) := by
        rw [M.lift_apply, Out.idx_of_lt hil]
      rw [M.bind_ok this, M.bind_ok e, e']
    · intro k hk hkl j hj
      by_cases hki : k = i
      · subst hki
        rw [fr' ⟨bx, k * sx + j⟩ (fun _ => by rw [key]; simp only; omega) (fun hh => absurd hh hb)]
        exact c1 j hj
      · exact c1' k (by omega) hkl j hj
    · intro k hk hkl j hj
      by_cases hki : k = i
      · subst hki
        rw [fr' ⟨by', k * sy + j⟩ (fun hh => absurd hh.symm hb) (fun _ => by rw [key]; simp only; omega)]
        exact c2 j hj
      · exact c2' k (by omega) hkl j hj
    · intro q q1 q2
      rw [fr' q (fun hh => by have := q1 hh; rw [key]; omega) (fun hh => by have := q2 hh; rw [key]; omega)]
      apply fr
      · rintro ⟨a, b, -⟩; have := q1 a; omega
      · rintro ⟨a, b, -⟩; have := q2 a; omega

/-! ### Drawing distinct indices -/

theorem drawUnique_sound {num : Nat} : ∀ {draws acc l : List Int} {P : Int → Prop},
    acc.Nodup → (∀ v ∈ acc, P v) → (∀ v ∈ draws, P v) → drawUnique num acc draws = some l →
    l.Nodup ∧ (∀ v ∈ l, P v) ∧ l.length = num
  | draws, acc, l, P, hn, ha, hd, h => by
    unfold drawUnique at h
    split at h
    · rename_i hl
      cases h
      exact ⟨hn, ha, hl⟩
    · cases draws with
      | nil => simp at h
      | cons d draws =>
        simp only at h
        refine drawUnique_sound (P := P) ?_ ?_ (fun v hv => hd v (by simp [hv])) h
        · split
          · exact hn
          · rename_i hc; exact List.nodup_cons.2 ⟨hc, hn⟩
        · split
          · exact ha
          · intro v hv
            rcases List.mem_cons.1 hv with rfl | hv
            · exact hd _ (by simp)
            · exact ha v hv

theorem drawUnique_complete {num : Nat} : ∀ {draws acc : List Int} {want : List Int},
    acc.length ≤ num → want.Nodup → num ≤ want.length → (∀ v ∈ want, v ∈ acc ∨ v ∈ draws) → acc.Nodup →
    ∃ l, drawUnique num acc draws = some l
  | draws, acc, want, h1, h2, h3, h4, h5 => by
    unfold drawUnique
    split
    · exact ⟨_, rfl⟩
    · rename_i hl
      cases draws with
      | nil =>
        exfalso
        have : want ⊆ acc := fun v hv => by simpa using h4 v hv
        have := (List.subperm_of_subset h2 this).length_le
        omega
      | cons d draws =>
        simp only
        refine drawUnique_complete (want := want) ?_ h2 h3 ?_ ?_
        · split
          · exact h1
          · simp only [List.length_cons]; omega
        · intro v hv
          rcases h4 v hv with h | h
          · left; split
            · exact h
            · exact List.mem_cons_of_mem _ h
          · rcases List.mem_cons.1 h with rfl | h
            · left; split
              · assumption
              · simp
            · exact .inr h
        · split
          · exact h5
          · rename_i hc; exact List.nodup_cons.2 ⟨hc, h5⟩

end DW.DLL
