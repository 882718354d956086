import Verif.Lemmas.SamplesImage
import Verif.Lemmas.DataLoader
/-! # Lemmas about `pull` of the samples' datasets -/

set_option autoImplicit false

namespace DW.SamplesL

open DW DW.Spec DW.Samples DW.Tensor DW.Image DW.ImageL DW.Props.ImageP

variable {α : Type}

theorem heap_ext {h h' : Heap α} (l : SameLayout h h') (hc : ∀ q, cell? h' q = cell? h q) : h' = h := by
  have hb : h'.blocks = h.blocks := by
    apply List.ext_getElem?
    intro b
    have hl := l.lens b
    have hcb : ∀ i, cell? h' ⟨b, i⟩ = cell? h ⟨b, i⟩ := fun i => hc _
    unfold cell? at hcb
    simp only at hcb
    revert hl hcb
    rcases h'.blocks[b]? with _ | _ | c <;> rcases h.blocks[b]? with _ | _ | c' <;> intro hl hcb <;> simp at hl <;> try rfl
    exact congrArg (fun x => some (some x)) (List.ext_getElem? hcb)
  cases h; cases h'
  simp only at hb
  have := l.descs
  simp only at this
  rw [hb, this]

theorem write_window {h : Heap α} {t : Handle} {d : Desc} {p : Ptr} {n i : Nat} (w : Window h t d p n) (hi : i < n) (v : α) :
    Tensor.write t i v h = storeCell ⟨p.block, p.off + i⟩ (some v) h := by
  have hp : elemPtr t i h = (.ok ⟨p.block, p.off + i⟩, h) := by simp [elemPtr, M.bind_apply, desc_some w.desc, w.data]
  rw [Tensor.write, M.bind_ok hp]

theorem store_window {h : Heap α} {t : Handle} {d : Desc} {p : Ptr} {n i : Nat} (w : Window h t d p n) (hi : i < n) (v : α) :
    ∃ h', storeCell ⟨p.block, p.off + i⟩ (some v) h = (.ok (), h') ∧ SameLayout h h' ∧
      ∀ q, cell? h' q = if q = ⟨p.block, p.off + i⟩ then some (some v) else cell? h q := by
  obtain ⟨c, hc⟩ := Option.isSome_iff_exists.1 (w.cells i hi)
  refine ⟨_, storeCell_of_cell? hc, setCell_sameLayout _ _ _, fun q => ?_⟩
  rw [cell?_setCell]
  by_cases hq : q = ⟨p.block, p.off + i⟩
  · rw [if_pos ⟨hq.symm, by simp [hc]⟩, if_pos hq]
  · rw [if_neg fun hh => hq hh.1.symm, if_neg hq]

theorem fill_window {h : Heap α} {t : Handle} {d : Desc} {p : Ptr} {n : Nat} (w : Window h t d p n) (vs : Nat → α) :
    fill t vs h = fillLoop p vs 0 n h := by
  unfold fill
  rw [M.bind_ok (desc_some w.desc), w.total, w.data]
  cases n <;> rfl

theorem infoAt_range {β : Type} {info : List β} {idx : Int} (h : 0 ≤ idx ∧ idx < info.length) :
    ∃ r, infoAt info idx = .ok r ∧ info[idx.toNat]? = some r := by
  have : idx.toNat < info.length := by omega
  refine ⟨info[idx.toNat], ?_, List.getElem?_eq_getElem this⟩
  rw [infoAt, if_pos h.1, Out.idx, List.getElem?_eq_getElem this]

theorem infoAt_out {β : Type} {info : List β} {idx : Int} (h : ¬ (0 ≤ idx ∧ idx < info.length)) : infoAt info idx = .ub .oob := by
  unfold infoAt
  split
  · rw [Out.idx, List.getElem?_eq_none (by omega)]
  · rfl

/-- Writing the label of a sample. -/
theorem label_write {h : Heap α} {y : Handle} {d : Desc} {q : Ptr} (w : Window h y d q 1) (v : α) :
    Tensor.write y 0 v h = fill y (fun _ => v) h := by
  rw [fill_window w, write_window w (by omega)]
  show _ = (storeCell _ _ >>= fun _ => pure ()) h
  obtain ⟨h', e, -⟩ := store_window w (i := 0) (by omega) v
  rw [M.bind_ok e, e]
  rfl

/-- `pull` of a dataset of rows writes the entry. -/
theorem irisPull_eq {h : Heap α} {X y : Handle} {dX dy : Desc} {p q : Ptr} (wX : Window h X dX p 4) (wy : Window h y dy q 1)
    (ofInt : Int → α) (info : List (IrisInfo α)) (idx : Int) :
    irisPull ofInt info idx X y h = (irisData ofInt info).pull idx X y h := by
  unfold Dataset.pull
  by_cases hr : 0 ≤ idx ∧ idx < (irisData ofInt info).size
  · obtain ⟨r, h1, h2⟩ := infoAt_range hr
    rw [if_pos hr]
    unfold irisPull
    rw [h1, M.bind_ok (M.lift_apply _ _)]
    obtain ⟨a, ea, la, -⟩ := store_window wX (i := 0) (by omega) r.sepalLength
    obtain ⟨b, eb, lb, -⟩ := store_window (wX.mono la) (i := 1) (by omega) r.sepalWidth
    obtain ⟨c, ec, lc, -⟩ := store_window ((wX.mono la).mono lb) (i := 2) (by omega) r.petalLength
    obtain ⟨d, ed, ld, -⟩ := store_window (((wX.mono la).mono lb).mono lc) (i := 3) (by omega) r.petalWidth
    have hfill : fill X ((irisData ofInt info).x idx) h = (.ok (), d) := by
      rw [fill_window wX]
      show (storeCell _ _ >>= fun _ => storeCell _ _ >>= fun _ => storeCell _ _ >>= fun _ => storeCell _ _ >>= fun _ => pure ()) h = _
      simp only [irisData, h2]
      show (storeCell _ (some r.sepalLength) >>= fun _ => storeCell _ (some r.sepalWidth) >>= fun _ => storeCell _ (some r.petalLength) >>=
        fun _ => storeCell _ (some r.petalWidth) >>= fun _ => pure ()) h = _
      rw [M.bind_ok ea, M.bind_ok eb, M.bind_ok ec, M.bind_ok ed]
      rfl
    rw [M.bind_ok hfill, M.bind_ok ((write_window wX (by omega) _).trans ea), M.bind_ok ((write_window (wX.mono la) (by omega) _).trans eb),
      M.bind_ok ((write_window ((wX.mono la).mono lb) (by omega) _).trans ec),
      M.bind_ok ((write_window (((wX.mono la).mono lb).mono lc) (by omega) _).trans ed),
      label_write ((((wy.mono la).mono lb).mono lc).mono ld)]
    simp only [irisData, h2]
    rfl
  · rw [if_neg hr]
    unfold irisPull
    rw [infoAt_out hr]
    rfl

/-- Reading and normalising a picture of the right size. -/
theorem pixels_window {h : Heap α} {X : Handle} {d : Desc} {p : Ptr} {n : Nat} (w : Window h X d p n) (ofByte : Nat → α) (div : α → α)
    {fs : Files} {path : View} {pic : Picture} (hp : Decodes fs path pic) (dp : Dense pic) (hn : n = pic.height * pic.width * pic.channels) :
    ∃ h1 h2, readImage ofByte fs path X h = (.ok .returned, h1) ∧ normalize div X h1 = (.ok (), h2) ∧
      fill X (fun i => div (ofByte (Picture.byte pic i))) h = (.ok (), h2) ∧ SameLayout h h2 := by
  obtain ⟨h1, e1, l1, a1, b1⟩ := read_window w ofByte hp dp hn
  obtain ⟨h2, e2, l2, a2, b2⟩ := normalize_window (w.mono l1) div a1
  obtain ⟨h3, e3, l3, a3, b3⟩ := fillLoop_spec p (fun i => div (ofByte (Picture.byte pic i))) n 0 h fun j _ hj => w.cells j (by omega)
  have : h2 = h3 := by
    refine heap_ext ⟨?_, ?_, ?_, ?_⟩ fun q => ?_
    · rw [l2.descs, l1.descs, l3.descs]
    · intro q; rw [l2.valid, l1.valid, l3.valid]
    · rw [l2.len, l1.len, l3.len]
    · intro q; rw [l2.lens, l1.lens, l3.lens]
    by_cases hq : q.block = p.block ∧ p.off ≤ q.off ∧ q.off < p.off + n
    · obtain ⟨j, rfl⟩ : ∃ j, q = ⟨p.block, p.off + j⟩ := ⟨q.off - p.off, by
        cases q
        simp only [Ptr.mk.injEq]
        exact ⟨hq.1, by have := hq.2.1; simp only at this ⊢; omega⟩⟩
      simp only at hq
      rw [a2 j (by omega), a3 j (by omega) (by omega)]
    · rw [b2 q hq, b1 q hq, b3 q fun hh => hq (by simpa using hh)]
  subst this
  exact ⟨h1, h2, e1, e2, (fill_window w _).trans e3, l1.trans l2⟩

/-- `pull` of MNIST writes the entry. -/
theorem mnistPull_eq {h : Heap α} {X y : Handle} {dX dy : Desc} {p q : Ptr} (wX : Window h X dX p 784) (wy : Window h y dy q 1)
    (ofByte : Nat → α) (div : α → α) (ofInt : Int → α) {fs : Files} {info : List DataInfo} {pic : List Char → Picture}
    (hp : ∀ r ∈ info, Decodes fs (.ofString r.path) (pic r.path) ∧ Dense (pic r.path) ∧
      (pic r.path).height * (pic r.path).width * (pic r.path).channels = 784) {idx : Int} (hr : 0 ≤ idx ∧ idx < info.length) :
    ∃ h', (mnistData ofByte div ofInt info pic).pull idx X y h = (.ok (), h') ∧
      mnistPull ofByte div ofInt fs info idx X y h = (.ok .returned, h') ∧ SameLayout h h' := by
  obtain ⟨r, h1, h2⟩ := infoAt_range hr
  obtain ⟨c1, c2, c3⟩ := hp r (List.mem_of_getElem? h2)
  obtain ⟨a, b, e1, e2, e3, l⟩ := pixels_window wX ofByte div c1 c2 c3.symm
  obtain ⟨c, ec, lc, -⟩ := store_window (wy.mono l) (i := 0) (by omega) (ofInt r.label)
  have hw := (write_window (wy.mono l) (by omega) (ofInt r.label)).trans ec
  refine ⟨c, ?_, ?_, l.trans lc⟩
  · unfold Dataset.pull
    rw [if_pos (show 0 ≤ idx ∧ idx < (mnistData ofByte div ofInt info pic).size from hr)]
    simp only [mnistData, pathAt, labelAt, h2, Option.map_some, Option.getD_some]
    rw [M.bind_ok e3, ← label_write (wy.mono l), hw]
  · unfold mnistPull
    rw [h1, M.bind_ok (M.lift_apply _ _), M.bind_ok e1]
    show (normalize div X >>= _) a = _
    rw [M.bind_ok e2, M.bind_ok hw]
    rfl

/-- `pull` of the CIFAR datasets writes the entry. -/
theorem cifarPull_eq {s : Cifar α} {X y : Handle} {dX dy : Desc} {p q : Ptr} (wX : Window s.heap X dX p 3072) (hsh : dX.shape = [3, 32, 32])
    (hst : dX.strides = calculateStrides [3, 32, 32]) (wy : Window s.heap y dy q 1) (hs : Scratch s.heap s.image [p.block, q.block])
    (ofByte : Nat → α) (div : α → α) (ofInt : Int → α) {fs : Files} {info : List DataInfo} {pic : List Char → Picture}
    (hp : ∀ r ∈ info, Decodes fs (.ofString r.path) (pic r.path) ∧ Dense (pic r.path) ∧
      (pic r.path).height * (pic r.path).width * (pic r.path).channels = 3072) {idx : Int} (hr : 0 ≤ idx ∧ idx < info.length) :
    ∃ h' s', (cifarData ofByte div ofInt info pic).pull idx X y s.heap = (.ok (), h') ∧
      cifarPull ofByte div ofInt fs info idx X y s = (.ok .returned, s') ∧ Scratch s'.heap s'.image [p.block, q.block] ∧
      (∀ (t : Handle) (d : Desc), s.heap.descs[t]? = some d → s'.heap.descs[t]? = some d) ∧
      (∀ c, (cell? s.heap c).isSome → (cell? s'.heap c).isSome) ∧
      ∀ c, (cell? s.heap c).isSome → c.block ∈ [p.block, q.block] ∨ NotScratch s.heap s.image c → cell? s'.heap c = cell? h' c := by
  obtain ⟨r, h1, h2⟩ := infoAt_range hr
  obtain ⟨c1, c2, c3⟩ := hp r (List.mem_of_getElem? h2)
  obtain ⟨ha, ea, la, aa, ba⟩ := read_window wX ofByte c1 c2 c3.symm
  have hlt : ∀ {c : Ptr}, (cell? s.heap c).isSome → c.block < s.heap.blocks.length := fun {c} hc => by
    by_contra hge
    unfold cell? at hc
    rw [List.getElem?_eq_none (by omega)] at hc
    cases hc
  have hsa : Scratch ha s.image [p.block, q.block] := by
    obtain ⟨d, hd, hi⟩ := hs
    refine ⟨d, by rw [la.descs]; exact hd, fun he => ?_⟩
    obtain ⟨i1, r, i2, i3⟩ := hi he
    exact ⟨i1, r, i2.mono la, i3⟩
  obtain ⟨sb, eb, hsb, db, lb, vb, ab, bb⟩ := hwc_spec (s := ⟨ha, s.image⟩) (wX.mono la) hsh hst (others := [p.block, q.block])
    (by
      intro b hb
      simp only [List.mem_cons, List.not_mem_nil, or_false] at hb
      rw [la.len]
      rcases hb with rfl | rfl
      · exact hlt (wX.cells 0 (by omega))
      · exact hlt (wy.cells 0 (by omega))) (by simp) hsa aa
  simp only at db vb bb
  have wXb : Window sb.heap X dX p 3072 := ⟨db _ _ (wX.mono la).desc, wX.total, wX.data, fun i hi => vb _ ((wX.mono la).cells i hi)⟩
  have wyb : Window sb.heap y dy q 1 := ⟨db _ _ (wy.mono la).desc, wy.total, wy.data, fun i hi => vb _ ((wy.mono la).cells i hi)⟩
  let v : Nat → α := fun j => ofByte (Picture.byte (pic r.path) (3 * (j % 1024) + j / 1024))
  obtain ⟨hc, ec, lc, ac, bc⟩ := normalize_window wXb div (v := v) (fun j hj => by
    have := ab (j / 1024) (j % 1024) (by omega) (by omega)
    rw [Nat.div_add_mod'] at this
    exact this)
  obtain ⟨hd, ed, ld, ad⟩ := store_window (wyb.mono lc) (i := 0) (by omega) (ofInt r.label)
  obtain ⟨he, ee, le, ae, be⟩ := fillLoop_spec p (fun j => div (v j)) 3072 0 s.heap fun j _ hj => wX.cells j (by omega)
  obtain ⟨hf, ef, lf, af⟩ := store_window (wy.mono le) (i := 0) (by omega) (ofInt r.label)
  refine ⟨hf, ⟨hd, sb.image⟩, ?_, ?_, ?_, ?_, ?_, ?_⟩
  · unfold Dataset.pull
    rw [if_pos (show 0 ≤ idx ∧ idx < (cifarData ofByte div ofInt info pic).size from hr)]
    simp only [cifarData, pathAt, labelAt, h2, Option.map_some, Option.getD_some]
    rw [M.bind_ok ((fill_window wX _).trans ee), ← label_write (wy.mono le), write_window (wy.mono le) (by omega), ef]
  · unfold cifarPull
    rw [h1, M.bind_ok (M.lift_apply _ _), M.bind_ok (onTensors_ok ea)]
    show (hwc2chw X >>= _) _ = _
    rw [M.bind_ok eb, M.bind_ok (onTensors_ok ec), M.bind_ok (onTensors_ok ((write_window (wyb.mono lc) (by omega) _).trans ed))]
    rfl
  · obtain ⟨d, hd', hi⟩ := hsb
    refine ⟨d, by rw [ld.descs, lc.descs]; exact hd', fun he => ?_⟩
    obtain ⟨i1, r, i2, i3⟩ := hi he
    exact ⟨i1, r, (i2.mono lc).mono ld, i3⟩
  · intro t d ht
    rw [ld.descs, lc.descs]
    exact db t d (by rw [la.descs]; exact ht)
  · intro c hc
    rw [ld.valid, lc.valid]
    exact vb c (by rw [la.valid]; exact hc)
  · intro c hv hor
    rw [ad, af]
    split
    · rfl
    · by_cases hq : c.block = p.block ∧ p.off ≤ c.off ∧ c.off < p.off + 3072
      · obtain ⟨j, rfl⟩ : ∃ j, c = ⟨p.block, p.off + j⟩ := ⟨c.off - p.off, by
          cases c
          simp only [Ptr.mk.injEq]
          exact ⟨hq.1, by have := hq.2.1; simp only at this ⊢; omega⟩⟩
        simp only at hq
        rw [ac j (by omega), ae j (by omega) (by omega)]
      · rw [bc c hq, bb c (by rw [la.valid]; exact hv) hq (hor.imp id fun hn => by unfold NotScratch; rw [la.descs]; exact hn), ba c hq,
          be c fun hh => hq (by simpa using hh)]

/-- A picture of another size makes `pull` throw; nothing changes. -/
theorem mnistPull_size {h : Heap α} {X : Handle} (y : Handle) {dX : Desc} {p : Ptr} (wX : Window h X dX p 784)
    (ofByte : Nat → α) (div : α → α) (ofInt : Int → α) {fs : Files} {info : List DataInfo} {r : DataInfo} {pic : Picture}
    (hp : Decodes fs (.ofString r.path) pic) (dp : Dense pic) (hn : pic.height * pic.width * pic.channels ≠ 784) {idx : Nat}
    (hr : info[idx]? = some r) : mnistPull ofByte div ofInt fs info idx X y h = (.throw .dw, h) := by
  have h1 : infoAt info (idx : Int) = .ok r := by
    rw [infoAt, if_pos (by omega), Out.idx, Int.toNat_natCast, hr]
  unfold mnistPull
  rw [h1, M.bind_ok (M.lift_apply _ _), M.bind_throw (read_wrong_size wX.desc ofByte hp dp (by rw [wX.total]; decide) (by rw [wX.total]; exact hn.symm))]

theorem cifarPull_size {s : Cifar α} {X : Handle} (y : Handle) {dX : Desc} {p : Ptr} (wX : Window s.heap X dX p 3072)
    (ofByte : Nat → α) (div : α → α) (ofInt : Int → α) {fs : Files} {info : List DataInfo} {r : DataInfo} {pic : Picture}
    (hp : Decodes fs (.ofString r.path) pic) (dp : Dense pic) (hn : pic.height * pic.width * pic.channels ≠ 3072) {idx : Nat}
    (hr : info[idx]? = some r) : cifarPull ofByte div ofInt fs info idx X y s = (.throw .dw, s) := by
  have h1 : infoAt info (idx : Int) = .ok r := by
    rw [infoAt, if_pos (by omega), Out.idx, Int.toNat_natCast, hr]
  unfold cifarPull
  rw [h1, M.bind_ok (M.lift_apply _ _),
    M.bind_throw (onTensors_throw (read_wrong_size wX.desc ofByte hp dp (by rw [wX.total]; decide) (by rw [wX.total]; exact hn.symm)))]

/-- Where the numbers of a picture of 32×32 pixels are. -/
theorem byte_pixel {pic : Picture} (hw : pic.width = 32) (hc : pic.channels = 3) {c y x : Nat} (h1 : c < 3) (h2 : y < 32) (h3 : x < 32) :
    Picture.byte pic (3 * ((c * 1024 + (y * 32 + x)) % 1024) + (c * 1024 + (y * 32 + x)) / 1024) = (pic.rows.getD y []).getD (3 * x + c) 0 := by
  have e1 : (c * 1024 + (y * 32 + x)) % 1024 = y * 32 + x := by omega
  have e2 : (c * 1024 + (y * 32 + x)) / 1024 = c := by omega
  rw [e1, e2, Picture.byte, hw, hc]
  have e3 : (3 * (y * 32 + x) + c) / (32 * 3) = y := by omega
  have e4 : (3 * (y * 32 + x) + c) % (32 * 3) = 3 * x + c := by omega
  rw [e3, e4]

end DW.SamplesL
