import Verif.Model.Tensor
import Verif.Spec.Tensor
import Mathlib.Tactic.Ring
import Mathlib.Tactic.Linarith
import Mathlib.Algebra.Order.Ring.Int
/-! Helper lemmas about the tensor heap. -/

set_option autoImplicit false

namespace DW.Tensor

open DW.Spec

variable {α : Type}

/-! ### Strides and counts -/

theorem strides_aux (shape : Shape) :
    shape.foldr (fun d (acc : List Int × Int) => (acc.2 :: acc.1, acc.2 * d)) ([], 1)
      = (calculateStrides shape, shape.prod) := by
  induction shape with
  | nil => rfl
  | cons d ds ih =>
    have e : calculateStrides (d :: ds) = ds.prod :: calculateStrides ds := by
      unfold calculateStrides
      rw [List.foldr_cons, ih]
    rw [List.foldr_cons, ih, e]
    simp [List.prod_cons, mul_comm]

@[simp] theorem calculateStrides_nil : calculateStrides [] = [] := rfl

@[simp] theorem calculateStrides_cons (d : Int) (ds : Shape) :
    calculateStrides (d :: ds) = ds.prod :: calculateStrides ds := by
  have := strides_aux ds
  unfold calculateStrides
  rw [List.foldr_cons, this]

@[simp] theorem calculateStrides_length (shape : Shape) :
    (calculateStrides shape).length = shape.length := by
  induction shape with
  | nil => rfl
  | cons d ds ih => simp [ih]

theorem calculateStrides_getElem (shape : Shape) (k : Nat) (hk : k < shape.length) :
    (calculateStrides shape)[k]'(by simpa using hk) = (shape.drop (k + 1)).prod := by
  induction shape generalizing k with
  | nil => simp at hk
  | cons d ds ih =>
    cases k with
    | zero => simp
    | succ k => simpa using ih k (by simpa using hk)

theorem accProd_ok {shape : Shape} {i n : Int} (h : accProd shape i = .ok n) :
    n = i * shape.prod := by
  induction shape generalizing i with
  | nil => simp [accProd] at h; simp [h]
  | cons d ds ih =>
    simp only [accProd] at h
    split at h
    · rw [ih h]; simp [List.prod_cons, mul_assoc]
    · simp at h

theorem accProd_ne_throw {shape : Shape} {i : Int} {e : Exn} : accProd shape i ≠ .throw e := by
  induction shape generalizing i with
  | nil => simp [accProd]
  | cons d ds ih => simp only [accProd]; split <;> simp [ih]

theorem accProd_ub {shape : Shape} {i : Int} {u : Ub} (h : accProd shape i = .ub u) :
    u = .overflow := by
  induction shape generalizing i with
  | nil => simp [accProd] at h
  | cons d ds ih =>
    simp only [accProd] at h
    split at h
    · exact ih h
    · simpa using h.symm

theorem static_cons {d : Int} {ds : List Int} : Static (d :: ds) ↔ 0 ≤ d ∧ Static ds := by
  simp [Static]

theorem prod_nonneg {s : List Int} (h : Static s) : 0 ≤ s.prod := by
  induction s with
  | nil => simp
  | cons d ds ih =>
    rw [static_cons] at h
    rw [List.prod_cons]
    exact mul_nonneg h.1 (ih h.2)

theorem accProd_static {shape : Shape} {i : Int} (hs : Static shape) (hi : 0 ≤ i)
    (hi' : i ≤ 2147483647) (hf : ∀ k, i * (shape.take k).prod ≤ 2147483647) :
    accProd shape i = .ok (i * shape.prod) := by
  induction shape generalizing i with
  | nil => simp [accProd]
  | cons d ds ih =>
    rw [static_cons] at hs
    have h1 : i * d ≤ 2147483647 := by simpa using hf 1
    have h0 : 0 ≤ i * d := mul_nonneg hi hs.1
    have hfit : fitsInt (i * d) = true := by
      simp only [fitsInt, Bool.and_eq_true, decide_eq_true_eq]; omega
    simp only [accProd, hfit, if_true]
    rw [ih hs.2 h0 h1]
    · simp [mul_assoc]
    · intro k
      have := hf (k + 1)
      simpa [mul_assoc] using this

theorem accProd_static_iff {shape : Shape} {i : Int} (hs : Static shape) (hi : 0 ≤ i)
    (hi' : i ≤ 2147483647) {n : Int} (h : accProd shape i = .ok n) (k : Nat) :
    i * (shape.take k).prod ≤ 2147483647 := by
  induction shape generalizing i k with
  | nil => simpa using hi'
  | cons d ds ih =>
    rw [static_cons] at hs
    simp only [accProd] at h
    split at h
    · rename_i hfit
      simp only [fitsInt, Bool.and_eq_true, decide_eq_true_eq] at hfit
      cases k with
      | zero => simpa using hi'
      | succ k =>
        have := ih hs.2 (mul_nonneg hi hs.1) hfit.2 h k
        simpa [mul_assoc] using this
    · simp at h

/-- Counting the elements of a shape without negative dimensions. -/
theorem accProd_eq {shape : Shape} (hs : Static shape) (hf : CountFits shape) :
    accProd shape = .ok (count shape) := by
  have := accProd_static hs (by decide : (0 : Int) ≤ 1) (by decide) (by simpa [CountFits] using hf)
  simpa [count] using this

theorem hasNegative_false {shape : Shape} : hasNegative shape = false ↔ Static shape := by
  simp [hasNegative, Static]

theorem hasNegative_true {shape : Shape} : hasNegative shape = true ↔ ¬ Static shape := by
  rw [← hasNegative_false]; simp

/-! ### Row-major offsets -/

theorem offset_bounds {shape idx : List Int} (h : InRange shape idx) :
    0 ≤ offset (calculateStrides shape) idx ∧
      offset (calculateStrides shape) idx < shape.prod := by
  induction h with
  | nil => simp [offset]
  | @cons i d is ds hid _ ih =>
    simp only [offset, calculateStrides_cons, List.zipWith_cons_cons, List.sum_cons,
      List.prod_cons] at *
    obtain ⟨h0, h1⟩ := ih
    constructor
    · nlinarith [hid.1, hid.2]
    · nlinarith [hid.1, hid.2]

theorem offset_inj {shape idx idx' : List Int} (h : InRange shape idx) (h' : InRange shape idx')
    (e : offset (calculateStrides shape) idx = offset (calculateStrides shape) idx') :
    idx = idx' := by
  induction h generalizing idx' with
  | nil => cases h'; rfl
  | @cons i d is ds hid hrest ih =>
    cases h' with
    | @cons i' _ is' _ hid' hrest' =>
      have b := offset_bounds hrest
      have b' := offset_bounds hrest'
      simp only [offset, calculateStrides_cons, List.zipWith_cons_cons, List.sum_cons] at e b b' ih
      have hi : i = i' := by
        by_contra hne
        rcases lt_or_gt_of_ne hne with hlt | hlt
        · nlinarith [b.1, b.2, b'.1, b'.2]
        · nlinarith [b.1, b.2, b'.1, b'.2]
      subst hi
      rw [ih hrest' (by linarith)]

theorem offset_surj {shape : List Int} (hs : Static shape) {n : Int} (h0 : 0 ≤ n)
    (h1 : n < shape.prod) :
    ∃ idx, InRange shape idx ∧ offset (calculateStrides shape) idx = n := by
  induction shape generalizing n with
  | nil => exact ⟨[], List.Forall₂.nil, by simp [offset] at *; omega⟩
  | cons d ds ih =>
    rw [static_cons] at hs
    rw [List.prod_cons] at h1
    have hp : 0 < ds.prod := by
      rcases lt_or_eq_of_le (prod_nonneg hs.2) with h | h
      · exact h
      · rw [← h] at h1; simp at h1; omega
    obtain ⟨idx, hr, he⟩ := ih hs.2 (Int.emod_nonneg n hp.ne') (Int.emod_lt_of_pos n hp)
    refine ⟨n / ds.prod :: idx, List.Forall₂.cons ⟨Int.ediv_nonneg h0 hp.le, ?_⟩ hr, ?_⟩
    · exact Int.ediv_lt_of_lt_mul hp h1
    · simp only [offset, calculateStrides_cons, List.zipWith_cons_cons, List.sum_cons] at *
      rw [he]
      have := Int.emod_add_mul_ediv n ds.prod
      linarith [mul_comm (n / ds.prod) ds.prod]

/-! ### Effects of the operations as equations -/

theorem desc_some {h : Heap α} {t : Handle} {d : Desc} (e : h.descs[t]? = some d) :
    desc t h = (.ok d, h) := by simp [desc, e]

theorem desc_none {h : Heap α} {t : Handle} (e : h.descs[t]? = none) :
    desc t h = (.ub .null, h) := by simp only [desc, e]

theorem lt_of_getElem? {β} {l : List β} {t : Nat} {d : β} (e : l[t]? = some d) : t < l.length :=
  (List.getElem?_eq_some_iff.1 e).1

theorem new_apply (h : Heap α) :
    (Tensor.new : M (Heap α) Handle) h =
      (.ok h.descs.length, { h with descs := h.descs ++ [({} : Desc)] }) := rfl

/-- Descriptor after `init`. -/
def initDesc (d : Desc) (shape : Shape) : Desc :=
  { d with shape := shape, strides := calculateStrides shape, total := shape.prod.toNat }

theorem init_ok {h : Heap α} {t : Handle} {d : Desc} {shape : Shape} (e : h.descs[t]? = some d)
    (hs : Static shape) (hf : CountFits shape) :
    init t shape h = (.ok (), { h with descs := h.descs.set t (initDesc d shape) }) := by
  obtain ⟨ht, rfl⟩ := List.getElem?_eq_some_iff.1 e
  simp [init, M.bind_apply, hasNegative_false.2 hs, desc, setDesc, accProd_eq hs hf, ht,
    initDesc, count]

theorem init_throw {h : Heap α} {t : Handle} {shape : Shape} (hs : ¬ Static shape) :
    init t shape h = (.throw .dw, h) := by
  simp [init, M.bind_apply, hasNegative_true.2 hs]

/-- Blocks after the owned block of `d` is released. -/
def freed (bs : List (Option (List (Option α)))) : Option Nat → List (Option (List (Option α)))
  | none => bs
  | some b => bs.set b none

theorem free_apply (b : Option Nat) (h : Heap α) :
    free b h = (.ok (), { h with blocks := freed h.blocks b }) := by
  cases b <;> simp [free, freed]

/-- Heap after a successful `allocate`. -/
def allocHeap (h : Heap α) (t : Handle) (d : Desc) (shape : Shape) : Heap α where
  descs := h.descs.set t { initDesc d shape with
    memory := some h.blocks.length, data := some ⟨h.blocks.length, 0⟩ }
  blocks := freed (h.blocks ++ [some (List.replicate shape.prod.toNat none)]) d.memory

theorem allocate_ok {h : Heap α} {t : Handle} {d : Desc} {shape : Shape}
    (e : h.descs[t]? = some d) (hs : Static shape) (hf : CountFits shape) :
    allocate t shape h = (.ok (), allocHeap h t d shape) := by
  have ht := lt_of_getElem? e
  simp [allocate, M.bind_apply, init_ok e hs hf, desc, ht, newBlock, free_apply, setDesc,
    allocHeap, initDesc]

theorem allocate_throw {h : Heap α} {t : Handle} {shape : Shape} (hs : ¬ Static shape) :
    allocate t shape h = (.throw .dw, h) := by
  simp [allocate, M.bind_apply, init_throw hs]

theorem reshape_ok {h : Heap α} {t : Handle} {d : Desc} {shape : Shape}
    (e : h.descs[t]? = some d) (hp : accProd shape = .ok (d.total : Int)) :
    reshape t shape h = (.ok (), ⟨h.descs.set t
      { d with shape := shape, strides := calculateStrides shape }, h.blocks⟩) := by
  simp [reshape, M.bind_apply, hp, desc, e, setDesc]

theorem reshape_throw {h : Heap α} {t : Handle} {d : Desc} {shape : Shape} {n : Int}
    (e : h.descs[t]? = some d) (hp : accProd shape = .ok n) (hn : n ≠ d.total) :
    reshape t shape h = (.throw .dw, h) := by
  have : (n == (d.total : Int)) = false := by simpa using hn
  simp [reshape, M.bind_apply, hp, desc, e, this]

/-! ### Cells -/

/-- Content of the cell at a pointer, if the pointer is valid. -/
def cell? (h : Heap α) (p : Ptr) : Option (Option α) :=
  match h.blocks[p.block]? with
  | some (some cells) => cells[p.off]?
  | _ => none

theorem loadCell_of_cell? {h : Heap α} {p : Ptr} {c : Option α} (e : cell? h p = some c) :
    loadCell p h = (.ok c, h) := by
  unfold cell? at e
  unfold loadCell
  split at e
  · rename_i cells hb; simp [hb, e]
  · simp at e

/-- Heap with one cell replaced. -/
def setCell (h : Heap α) (p : Ptr) (c : Option α) : Heap α :=
  match h.blocks[p.block]? with
  | some (some cells) => { h with blocks := h.blocks.set p.block (some (cells.set p.off c)) }
  | _ => h

@[simp] theorem setCell_descs (h : Heap α) (p : Ptr) (c : Option α) :
    (setCell h p c).descs = h.descs := by
  unfold setCell; split <;> rfl

theorem storeCell_of_cell? {h : Heap α} {p : Ptr} {c c' : Option α} (e : cell? h p = some c') :
    storeCell p c h = (.ok (), setCell h p c) := by
  unfold cell? at e
  unfold storeCell setCell
  split at e
  · rename_i cells hb
    have := lt_of_getElem? e
    simp [hb, this]
  · simp at e

theorem cell?_setCell (h : Heap α) (p q : Ptr) (c : Option α) :
    cell? (setCell h p c) q = if p = q ∧ (cell? h p).isSome then some c else cell? h q := by
  obtain ⟨pb, po⟩ := p
  obtain ⟨qb, qo⟩ := q
  unfold setCell cell?
  simp only [Ptr.mk.injEq]
  cases hb : h.blocks[pb]? with
  | none => simp
  | some oc =>
    cases oc with
    | none => simp
    | some cells =>
      have hlt := lt_of_getElem? hb
      by_cases hbb : pb = qb
      · subst hbb
        simp only [List.getElem?_set, hlt, if_true, hb]
        by_cases ho : po = qo
        · subst ho
          by_cases hl : po < cells.length
          · simp [hl]
          · simp [hl]
        · simp [ho]
      · simp [hbb]

theorem cell?_setCell_isSome (h : Heap α) (p q : Ptr) (c : Option α) :
    (cell? (setCell h p c) q).isSome = (cell? h q).isSome := by
  rw [cell?_setCell]
  split
  · rename_i hh; rw [← hh.1]; simp [hh.2]
  · rfl

/-- Same descriptors, and exactly the same valid pointers. -/
structure SameLayout (h h' : Heap α) : Prop where
  descs : h'.descs = h.descs
  valid : ∀ p, (cell? h' p).isSome = (cell? h p).isSome
  len : h'.blocks.length = h.blocks.length
  lens : ∀ b : Nat, (h'.blocks[b]?.map (Option.map List.length)) = (h.blocks[b]?.map (Option.map List.length))

theorem SameLayout.refl (h : Heap α) : SameLayout h h := ⟨rfl, fun _ => rfl, rfl, fun _ => rfl⟩

theorem SameLayout.trans {h h' h'' : Heap α} (a : SameLayout h h') (b : SameLayout h' h'') :
    SameLayout h h'' :=
  ⟨b.descs.trans a.descs, fun p => (b.valid p).trans (a.valid p), b.len.trans a.len,
    fun x => (b.lens x).trans (a.lens x)⟩

theorem setCell_sameLayout (h : Heap α) (p : Ptr) (c : Option α) :
    SameLayout h (setCell h p c) where
  descs := setCell_descs h p c
  valid q := cell?_setCell_isSome h p q c
  len := by unfold setCell; split <;> simp
  lens b := by
    unfold setCell
    split
    · rename_i cells hb
      have hlt := lt_of_getElem? hb
      simp only [List.getElem?_set]
      split
      · rename_i hpb; subst hpb; rw [hb]; simp
      · rfl
    · rfl

/-! ### Fill and copy loops -/

theorem fillLoop_spec (p : Ptr) (vs : Nat → α) (n i : Nat) (h : Heap α)
    (hv : ∀ j, i ≤ j → j < i + n → (cell? h ⟨p.block, p.off + j⟩).isSome) :
    ∃ h', fillLoop p vs i n h = (.ok (), h') ∧ SameLayout h h' ∧
      (∀ j, i ≤ j → j < i + n → cell? h' ⟨p.block, p.off + j⟩ = some (some (vs j))) ∧
      (∀ q : Ptr, ¬ (q.block = p.block ∧ p.off + i ≤ q.off ∧ q.off < p.off + i + n) →
        cell? h' q = cell? h q) := by
  induction n generalizing i h with
  | zero => exact ⟨h, rfl, .refl h, by intro j; omega, fun _ _ => rfl⟩
  | succ n ih =>
    obtain ⟨c, hc⟩ := Option.isSome_iff_exists.1 (hv i (le_refl _) (by omega))
    set h1 := setCell h ⟨p.block, p.off + i⟩ (some (vs i)) with hh1
    have hstore : storeCell ⟨p.block, p.off + i⟩ (some (vs i)) h = (.ok (), h1) :=
      storeCell_of_cell? hc
    have hl : SameLayout h h1 := setCell_sameLayout _ _ _
    obtain ⟨h', e, l, a, b⟩ := ih (i + 1) h1 (by
      intro j hj1 hj2
      rw [hl.valid]; exact hv j (by omega) (by omega))
    refine ⟨h', ?_, hl.trans l, ?_, ?_⟩
    · simp only [fillLoop]
      rw [M.bind_ok hstore, e]
    · intro j h1' h2'
      by_cases hj : j = i
      · subst hj
        rw [b]
        · rw [hh1, cell?_setCell]; simp [hc]
        · simp
      · exact a j (by omega) (by omega)
    · intro q hq
      rw [b q (by intro hh; apply hq; omega), hh1, cell?_setCell, if_neg]
      rintro ⟨rfl, -⟩
      apply hq; simp

theorem copyLoop_spec (s d : Ptr) (n i : Nat) (h : Heap α)
    (hs : ∀ j, i ≤ j → j < i + n → (cell? h ⟨s.block, s.off + j⟩).isSome)
    (hd : ∀ j, i ≤ j → j < i + n → (cell? h ⟨d.block, d.off + j⟩).isSome)
    (hno : s.block ≠ d.block ∨ s.off = d.off ∨ s.off + i + n ≤ d.off + i ∨ d.off + i + n ≤ s.off + i) :
    ∃ h', copyLoop s d i n h = (.ok (), h') ∧ SameLayout h h' ∧
      (∀ j, i ≤ j → j < i + n → cell? h' ⟨d.block, d.off + j⟩ = cell? h ⟨s.block, s.off + j⟩) ∧
      (∀ q : Ptr, ¬ (q.block = d.block ∧ d.off + i ≤ q.off ∧ q.off < d.off + i + n) →
        cell? h' q = cell? h q) := by
  induction n generalizing i h with
  | zero => exact ⟨h, rfl, .refl h, by intro j; omega, fun _ _ => rfl⟩
  | succ n ih =>
    obtain ⟨c, hc⟩ := Option.isSome_iff_exists.1 (hs i (le_refl _) (by omega))
    obtain ⟨c', hc'⟩ := Option.isSome_iff_exists.1 (hd i (le_refl _) (by omega))
    set h1 := setCell h ⟨d.block, d.off + i⟩ c with hh1
    have hstore : storeCell ⟨d.block, d.off + i⟩ c h = (.ok (), h1) := storeCell_of_cell? hc'
    have hl : SameLayout h h1 := setCell_sameLayout _ _ _
    obtain ⟨h', e, l, a, b⟩ := ih (i + 1) h1
      (by intro j hj1 hj2; rw [hl.valid]; exact hs j (by omega) (by omega))
      (by intro j hj1 hj2; rw [hl.valid]; exact hd j (by omega) (by omega))
      (by omega)
    refine ⟨h', ?_, hl.trans l, ?_, ?_⟩
    · simp only [copyLoop]
      rw [M.bind_ok (loadCell_of_cell? hc), M.bind_ok hstore, e]
    · intro j h1' h2'
      by_cases hj : j = i
      · subst hj
        rw [b]
        · rw [hh1, cell?_setCell]; simp [hc, hc']
        · simp
      · rw [a j (by omega) (by omega), hh1, cell?_setCell, if_neg]
        rintro ⟨hp, -⟩
        simp only [Ptr.mk.injEq] at hp
        omega
    · intro q hq
      rw [b q (by intro hh; apply hq; omega), hh1, cell?_setCell, if_neg]
      rintro ⟨rfl, -⟩
      apply hq; simp

/-! ### Well-formed heaps -/

/-- A descriptor made without raw pointers: either never allocated, or it owns a live block of
exactly `total` cells, the product of its dimensions, and points to its start. -/
def Owned (h : Heap α) (d : Desc) : Prop :=
  (d.memory = none ∧ d.data = none ∧ d.total = 0) ∨
  ∃ b cells, d.memory = some b ∧ d.data = some ⟨b, 0⟩ ∧ h.blocks[b]? = some (some cells) ∧
    cells.length = d.total ∧ (d.total : Int) = d.shape.prod

/-- Invariant of programs that pass no raw pointers. -/
structure WF (h : Heap α) : Prop where
  owned : ∀ (t : Handle) (d : Desc), h.descs[t]? = some d → Owned h d
  inj : ∀ (t t' : Handle) (d d' : Desc) (b : Nat), h.descs[t]? = some d → h.descs[t']? = some d' →
    d.memory = some b → d'.memory = some b → t = t'

theorem owned_cell {h : Heap α} {d : Desc} (ho : Owned h d) {i : Nat} (hi : i < d.total) :
    ∃ p, d.data = some p ∧ p.off = 0 ∧ (cell? h ⟨p.block, p.off + i⟩).isSome := by
  rcases ho with ⟨-, -, h0⟩ | ⟨b, cells, -, hd, hb, hl, -⟩
  · omega
  · refine ⟨⟨b, 0⟩, hd, rfl, ?_⟩
    have : i < cells.length := by omega
    simp [cell?, hb, this]

theorem owned_of_sameLayout {h h' : Heap α} {d : Desc} (l : SameLayout h h') (ho : Owned h d) :
    Owned h' d := by
  rcases ho with ho | ⟨b, cells, h1, h2, h3, h4, h5⟩
  · exact Or.inl ho
  · right
    have := l.lens b
    rw [h3] at this
    simp only [Option.map_some, Option.map_eq_some_iff] at this
    obtain ⟨x, hx, cs, rfl, hcs⟩ := this
    exact ⟨b, cs, h1, h2, hx, by omega, h5⟩

theorem WF.sameLayout {h h' : Heap α} (w : WF h) (l : SameLayout h h') : WF h' where
  owned t d e := owned_of_sameLayout l (w.owned t d (by rw [← l.descs]; exact e))
  inj t t' d d' b e e' := by rw [l.descs] at e e'; exact w.inj t t' d d' b e e'

theorem owned_setDesc {h : Heap α} {d : Desc} (ds : List Desc) (ho : Owned h d) :
    Owned { h with descs := ds } d := ho

theorem WF.empty : WF (⟨[], []⟩ : Heap α) where
  owned t d e := by simp at e
  inj t t' d d' b e := by simp at e

theorem WF.new {h : Heap α} (w : WF h) : WF { h with descs := h.descs ++ [{}] } where
  owned t d e := by
    rw [List.getElem?_append] at e
    split at e
    · exact w.owned t d e
    · rw [List.getElem?_singleton] at e
      split at e
      · cases e; exact Or.inl ⟨rfl, rfl, rfl⟩
      · simp at e
  inj t t' d d' b e e' m m' := by
    have key : ∀ (t : Nat) (d : Desc), (h.descs ++ [({} : Desc)])[t]? = some d → d.memory = some b →
        h.descs[t]? = some d := by
      intro t d e m
      rw [List.getElem?_append] at e
      split at e
      · exact e
      · rw [List.getElem?_singleton] at e
        split at e
        · cases e; simp at m
        · simp at e
    exact w.inj t t' d d' b (key t d e m) (key t' d' e' m') m m'

theorem WF.reshape {h : Heap α} (w : WF h) {t : Handle} {d : Desc} (e : h.descs[t]? = some d)
    (s : Shape) (st : List Int) (hp : s.prod = d.total) :
    WF ⟨h.descs.set t { d with shape := s, strides := st }, h.blocks⟩ where
  owned u d' e' := by
    simp only [List.getElem?_set] at e'
    split at e'
    · split at e'
      · cases e'
        rcases w.owned t d e with ho | ⟨b, cells, h1, h2, h3, h4, h5⟩
        · exact Or.inl ho
        · exact Or.inr ⟨b, cells, h1, h2, h3, h4, hp.symm⟩
      · simp at e'
    · exact w.owned u d' e'
  inj u u' a a' b ea ea' m m' := by
    have key : ∀ (u : Nat) (a : Desc),
        (h.descs.set t { d with shape := s, strides := st })[u]? = some a →
        ∃ a0, h.descs[u]? = some a0 ∧ a0.memory = a.memory := by
      intro u a ea
      simp only [List.getElem?_set] at ea
      split at ea
      · rename_i htu
        split at ea
        · cases ea; exact ⟨d, htu ▸ e, rfl⟩
        · simp at ea
      · exact ⟨a, ea, rfl⟩
    obtain ⟨a0, h0, m0⟩ := key u a ea
    obtain ⟨a0', h0', m0'⟩ := key u' a' ea'
    exact w.inj u u' a0 a0' b h0 h0' (m0.trans m) (m0'.trans m')

theorem WF.block_lt {h : Heap α} (w : WF h) {t : Handle} {d : Desc} (e : h.descs[t]? = some d)
    {b : Nat} (m : d.memory = some b) : b < h.blocks.length := by
  rcases w.owned t d e with ⟨h1, -, -⟩ | ⟨b', cells, h1, -, h3, -, -⟩
  · rw [h1] at m; simp at m
  · rw [h1] at m; cases m; exact lt_of_getElem? h3

theorem freed_getElem? (bs : List (Option (List (Option α)))) (m : Option Nat) (b : Nat)
    (hne : m ≠ some b) : (freed bs m)[b]? = bs[b]? := by
  cases m with
  | none => rfl
  | some b' =>
    have : b' ≠ b := by rintro rfl; exact hne rfl
    simp [freed, this]

theorem WF.allocate {h : Heap α} (w : WF h) {t : Handle} {d : Desc} (e : h.descs[t]? = some d)
    (s : Shape) (hs : Static s) : WF (allocHeap h t d s) where
  owned u d' e' := by
    simp only [allocHeap, List.getElem?_set] at e'
    split at e'
    · split at e'
      · cases e'
        right
        refine ⟨h.blocks.length, List.replicate s.prod.toNat none, rfl, rfl, ?_, by simp [initDesc],
          by have := prod_nonneg hs; simp only [initDesc]; omega⟩
        simp only [allocHeap]
        rw [freed_getElem?]
        · simp
        · intro hm
          have := w.block_lt e hm
          omega
      · simp at e'
    · rename_i hne
      rcases w.owned u d' e' with ho | ⟨b, cells, h1, h2, h3, h4, h5⟩
      · exact Or.inl ho
      · right
        refine ⟨b, cells, h1, h2, ?_, h4, h5⟩
        simp only [allocHeap]
        rw [freed_getElem?]
        · rw [List.getElem?_append_left (lt_of_getElem? h3)]; exact h3
        · intro hm
          exact hne (w.inj t u d d' b e e' hm h1)
  inj u u' a a' b ea ea' m m' := by
    have key : ∀ (u : Nat) (a : Desc), (allocHeap h t d s).descs[u]? = some a → a.memory = some b →
        (u = t ∧ b = h.blocks.length) ∨ (u ≠ t ∧ h.descs[u]? = some a) := by
      intro u a ea m
      simp only [allocHeap, List.getElem?_set] at ea
      split at ea
      · rename_i htu
        split at ea
        · cases ea; left; simp at m; exact ⟨htu.symm, m.symm⟩
        · simp at ea
      · rename_i hne; right; exact ⟨fun h => hne h.symm, ea⟩
    rcases key u a ea m with ⟨rfl, hb⟩ | ⟨hu, h1⟩ <;> rcases key u' a' ea' m' with ⟨hu', hb'⟩ | ⟨hu', h1'⟩
    · exact hu'.symm
    · have := w.block_lt h1' m'; omega
    · have := w.block_lt h1 m; omega
    · exact w.inj u u' a a' b h1 h1' m m'

end DW.Tensor
