import Verif.Model.Image
import Verif.Lemmas.DataLoaderPull
import Mathlib.Tactic.Linarith
/-! Lemmas about the image reader. -/

set_option autoImplicit false

namespace DW.ImageL

open DW DW.Spec DW.Tensor DW.Image DW.Props.TensorP DW.DLL

variable {α : Type}

/-! ### Extensions -/

theorem findLastDot_none : ∀ (l : List Char) (i : Nat), findLastDot i l = none ↔ '.' ∉ l
  | [], _ => by simp [findLastDot]
  | c :: cs, i => by
    have ih := findLastDot_none cs (i + 1)
    rw [findLastDot]
    cases h : findLastDot (i + 1) cs with
    | some k =>
      rw [h] at ih
      simp only [reduceCtorEq, false_iff, not_not] at ih ⊢
      simp [ih]
    | none =>
      have hn := ih.1 h
      by_cases hc : c = '.'
      · simp [hc]
      · simp [hc, hn]; exact fun h => hc h.symm

theorem findLastDot_some : ∀ (l : List Char) (i k : Nat), findLastDot i l = some k →
    ∃ a b, l = a ++ '.' :: b ∧ '.' ∉ b ∧ k = i + a.length
  | [], _, _, h => by simp [findLastDot] at h
  | c :: cs, i, k, h => by
    rw [findLastDot] at h
    cases h' : findLastDot (i + 1) cs with
    | some k' =>
      rw [h'] at h
      simp only [Option.some.injEq] at h
      subst h
      obtain ⟨a, b, e1, e2, e3⟩ := findLastDot_some cs (i + 1) k' h'
      exact ⟨c :: a, b, by simp [e1], e2, by simp; omega⟩
    | none =>
      rw [h'] at h
      simp only at h
      split at h
      · rename_i hc
        simp only [Option.some.injEq] at h
        exact ⟨[], cs, by simp [hc], (findLastDot_none _ _).1 h', by simp [h]⟩
      · simp at h

theorem split_unique {a b a' b' : List Char} (h : a ++ '.' :: b = a' ++ '.' :: b') (hb : '.' ∉ b) (hb' : '.' ∉ b') :
    b = b' := by
  induction a generalizing a' with
  | nil =>
    cases a' with
    | nil => simpa using h
    | cons x a' =>
      simp only [List.nil_append, List.cons_append, List.cons.injEq] at h
      exact absurd (by rw [h.2]; simp) hb
  | cons x a ih =>
    cases a' with
    | nil =>
      simp only [List.nil_append, List.cons_append, List.cons.injEq] at h
      exact absurd (by rw [← h.2]; simp) hb'
    | cons y a' =>
      simp only [List.cons_append, List.cons.injEq] at h
      exact ih h.2

/-! ### Copying rows -/

theorem copyRows_spec (ofByte : Nat → α) (b : Nat) (n : Nat) : ∀ (rows : List (List Nat)) (i : Nat) (h : Heap α),
    (∀ row ∈ rows, n ≤ row.length) → (∀ j < (i + rows.length) * n, (cell? h ⟨b, j⟩).isSome) →
    ∃ h', copyRows ofByte ⟨b, 0⟩ n i rows h = (.ok (), h') ∧ SameLayout h h' ∧
      (∀ (k j : Nat) (hk : k < rows.length), j < n → cell? h' ⟨b, (i + k) * n + j⟩ = some (some (ofByte (rows[k].getD j 0)))) ∧
      (∀ q : Ptr, ¬ (q.block = b ∧ i * n ≤ q.off) → cell? h' q = cell? h q)
  | [], i, h, _, _ => ⟨h, rfl, .refl h, by simp, fun _ _ => rfl⟩
  | row :: rows, i, h, hl, hv => by
    have hlen : (row :: rows).length = rows.length + 1 := rfl
    have hv1 : ∀ j < n, (cell? h ⟨b, i * n + j⟩).isSome := fun j hj => hv _ (by
      have : (i + 1) * n ≤ (i + (row :: rows).length) * n := Nat.mul_le_mul_right _ (by rw [hlen]; omega)
      have e : (i + 1) * n = i * n + n := by rw [Nat.add_mul, Nat.one_mul]
      omega)
    obtain ⟨h1, e1, l1, f1, g1⟩ := fillLoop_spec (α := α) ⟨b, 0 + i * n⟩ (fun i => ofByte (row.getD i 0)) n 0 h
      (fun j _ hj => by simp only [Nat.zero_add] at hj ⊢; exact hv1 j hj)
    obtain ⟨h2, e2, l2, f2, g2⟩ := copyRows_spec ofByte b n rows (i + 1) h1 (fun r hr => hl r (by simp [hr])) (fun j hj => by
      rw [l1.valid]
      exact hv j (by
        rw [hlen]
        have : i + 1 + rows.length = i + (rows.length + 1) := by omega
        rw [this] at hj; exact hj))
    refine ⟨h2, ?_, l1.trans l2, ?_, ?_⟩
    · rw [copyRows, copyRow, if_pos (hl row (by simp)), M.bind_ok e1, e2]
    · intro k j hk hj
      cases k with
      | zero =>
        rw [g2 _ (by
          have e : (i + 1) * n = i * n + n := by rw [Nat.add_mul, Nat.one_mul]
          simp only [true_and]; rw [e, Nat.add_zero]; omega)]
        have := f1 j (by omega) (by omega)
        simpa using this
      | succ k =>
        have := f2 k j (by simpa using hk) hj
        rw [show i + (k + 1) = i + 1 + k from by omega]
        simpa using this
    · intro q hq
      have e : (i + 1) * n = i * n + n := by rw [Nat.add_mul, Nat.one_mul]
      rw [g2 q (by rintro ⟨h1, h2⟩; exact hq ⟨h1, by omega⟩), g1 q (by
        rintro ⟨h1, h2, -⟩; exact hq ⟨h1, by simpa using h2⟩)]

/-- Each row has one byte per channel of each pixel. -/
structure Dense (p : Picture) : Prop where
  height : p.rows.length = p.height
  width : ∀ row ∈ p.rows, row.length = p.width * p.channels
  pos : 0 < p.height * p.width * p.channels
  fits : p.height * p.width * p.channels ≤ 2147483647

theorem Dense.factors {p : Picture} (d : Dense p) : 0 < p.height ∧ 0 < p.width ∧ 0 < p.channels := by
  have := d.pos
  refine ⟨?_, ?_, ?_⟩ <;> rw [Nat.pos_iff_ne_zero] <;> intro h0 <;> rw [h0] at this <;> simp at this

theorem Dense.le {p : Picture} (d : Dense p) : p.height * p.width ≤ 2147483647 ∧ p.width * p.channels ≤ 2147483647 := by
  obtain ⟨h1, h2, h3⟩ := d.factors
  have := d.fits
  constructor
  · exact le_trans (Nat.le_mul_of_pos_right _ h3) this
  · rw [Nat.mul_assoc] at this
    exact le_trans (Nat.le_mul_of_pos_left _ h1) this

theorem fitsInt_nat {k : Nat} (h : k ≤ 2147483647) : fitsInt (k : Int) = true := by
  simp [fitsInt]; omega

theorem Dense.total {p : Picture} (d : Dense p) : totalOf p.height p.width p.channels = .ok (p.height * p.width * p.channels) := by
  have h1 := fitsInt_nat d.le.1
  have h2 := fitsInt_nat d.fits
  push_cast at h1 h2
  rw [totalOf, if_pos h1, if_pos h2]

theorem Dense.countFits {p : Picture} (d : Dense p) : CountFits [(p.height : Int), p.width, p.channels] := by
  have h1 := d.fits
  have h2 := d.le.1
  obtain ⟨h3, h4, h5⟩ := d.factors
  have h6 : p.height ≤ 2147483647 := le_trans (Nat.le_mul_of_pos_right _ h4) h2
  intro k
  match k with
  | 0 => simp
  | 1 => simp; exact_mod_cast h6
  | 2 => simp; exact_mod_cast h2
  | k + 3 => simp; rw [← mul_assoc]; exact_mod_cast h1

theorem static3 (a b c : Nat) : Static [(a : Int), b, c] := by
  intro x hx; simp at hx; rcases hx with rfl | rfl | rfl <;> exact Int.natCast_nonneg _

/-- Preparing the destination. -/
theorem prepare_ok {h : Heap α} (w : WF h) {t : Handle} {d : Desc} (hd : h.descs[t]? = some d) {p : Picture} (dp : Dense p)
    (hsz : d.total = 0 ∨ d.total = p.height * p.width * p.channels) :
    ∃ h' d' b, prepare t p.height p.width p.channels h = (.ok (), h') ∧ WF h' ∧ h'.descs[t]? = some d' ∧
      d'.memory = some b ∧ d'.data = some ⟨b, 0⟩ ∧ d'.total = p.height * p.width * p.channels ∧
      (d.total = 0 → d'.shape = [(p.height : Int), p.width, p.channels]) ∧ (d.total ≠ 0 → d' = d) ∧
      (∀ u, u ≠ t → h'.descs[u]? = h.descs[u]? ∧ ∀ i, elem h' u i = elem h u i) := by
  by_cases h0 : d.total = 0
  · have hs := static3 p.height p.width p.channels
    have w' := w.allocate hd _ hs
    refine ⟨allocHeap h t d [(p.height : Int), p.width, p.channels], _, h.blocks.length, ?_, w', by simp [allocHeap, lt_of_getElem? hd]; rfl,
      rfl, rfl, ?_, fun _ => rfl, fun hne => absurd h0 hne, ?_⟩
    · rw [prepare, M.bind_ok (desc_some hd), if_pos h0, allocate_ok hd hs dp.countFits]
    · simp only [initDesc]
      have : ([(p.height : Int), p.width, p.channels].prod) = ((p.height * p.width * p.channels : Nat) : Int) := by
        simp [mul_assoc]
      rw [this, Int.toNat_natCast]
    · intro u hu
      refine ⟨?_, fun i => allocate_elem w t u d hd _ hu i⟩
      simp only [allocHeap]; exact List.getElem?_set_ne (Ne.symm hu)
  · rcases w.owned t d hd with ⟨-, -, hz⟩ | ⟨b, cells, m, pt, l, len, tot⟩
    · exact absurd hz h0
    · have hk : (p.height * p.width * p.channels == d.total) = true := by
        rcases hsz with h | h
        · exact absurd h h0
        · simp [h]
      refine ⟨h, d, b, ?_, w, hd, m, pt, by rcases hsz with h | h; exacts [absurd h h0, h], fun h => absurd h h0,
        fun _ => rfl, fun _ _ => ⟨rfl, fun _ => rfl⟩⟩
      rw [prepare, M.bind_ok (desc_some hd), if_neg h0]
      have hl : (M.lift (totalOf p.height p.width p.channels) : M (Heap α) Nat) h = (.ok (p.height * p.width * p.channels), h) := by
        rw [dp.total]; rfl
      rw [M.bind_ok hl, hk]; rfl

theorem prepare_throw {h : Heap α} {t : Handle} {d : Desc} (hd : h.descs[t]? = some d) {p : Picture} (dp : Dense p)
    (h0 : d.total ≠ 0) (hsz : d.total ≠ p.height * p.width * p.channels) :
    prepare t p.height p.width p.channels h = (.throw .dw, h) := by
  have hk : (p.height * p.width * p.channels == d.total) = false := by simpa using Ne.symm hsz
  rw [prepare, M.bind_ok (desc_some hd), if_neg h0]
  have hl : (M.lift (totalOf p.height p.width p.channels) : M (Heap α) Nat) h = (.ok (p.height * p.width * p.channels), h) := by
    rw [dp.total]; rfl
  rw [M.bind_ok hl, hk]; rfl

theorem store_spec (ofByte : Nat → α) {h : Heap α} (w : WF h) {t : Handle} {d : Desc} (hd : h.descs[t]? = some d) {p : Picture}
    (dp : Dense p) {b : Nat} (hm : d.memory = some b) (hdt : d.data = some ⟨b, 0⟩) (ht : d.total = p.height * p.width * p.channels) :
    ∃ h', store ofByte t p h = (.ok (), h') ∧ WF h' ∧ h'.descs = h.descs ∧
      (∀ (y j : Nat) (hy : y < p.rows.length), j < p.width * p.channels →
        elem h' t (y * (p.width * p.channels) + j) = some (some (ofByte (p.rows[y].getD j 0)))) ∧
      (∀ u, u ≠ t → ∀ i, elem h' u i = elem h u i) := by
  have hv : ∀ j < (0 + p.rows.length) * (p.width * p.channels), (cell? h ⟨b, j⟩).isSome := fun j hj => by
    rw [Nat.zero_add, dp.height, ← Nat.mul_assoc, ← ht] at hj
    obtain ⟨q, e, e0, hs⟩ := owned_cell (w.owned t d hd) hj
    rw [hdt] at e
    cases e
    simpa using hs
  obtain ⟨h', e, l, f, g⟩ := copyRows_spec ofByte b (p.width * p.channels) p.rows 0 h (fun r hr => (dp.width r hr).ge) hv
  have hd' : h'.descs[t]? = some d := by rw [l.descs]; exact hd
  refine ⟨h', ?_, w.sameLayout l, l.descs, fun y j hy hj => ?_, fun u hu i => ?_⟩
  · have hfit := fitsInt_nat dp.le.2
    push_cast at hfit
    have hptr : elemPtr t 0 h = (.ok ⟨b, 0⟩, h) := by
      simp [elemPtr, M.bind_apply, desc_some hd, hdt]
    rw [store, if_pos hfit, M.bind_ok hptr, e]
  · have := f y j hy hj
    rw [Nat.zero_add] at this
    simp [elem, hd', hdt, this]
  · simp only [elem, l.descs]
    cases hu' : h.descs[u]? with
    | none => rfl
    | some du =>
      rcases w.owned u du hu' with ⟨-, e0, -⟩ | ⟨b', cs', m2, d2, l2, -, -⟩
      · simp [e0]
      · simp only [d2]
        refine g _ fun hq => hu (w.inj u t du d b hu' hd ?_ hm)
        rw [m2, ← hq.1]

end DW.ImageL
