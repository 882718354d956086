import Verif.Lemmas.SerializationZ
/-!
# The loop of `load_state`
-/

set_option autoImplicit false

namespace DW.SerL

open DW DW.Spec

/-- Writing several entries into a dict, in order. -/
def pokes (es : Dict) (d : Dict) : Dict := es.foldl (fun d en => pokeTensor en.1 en.2.bytes d) d

/-- The entry has the shape and size of the tensor stored under its name. -/
def Fits (d : Dict) (en : String × SavedTensor) : Prop :=
  (d.lookup en.1).map (fun t => (t.shape, t.bytes.length)) = some (en.2.shape, en.2.bytes.length)

theorem fits_iff {d : Dict} {en : String × SavedTensor} :
    Fits d en ↔ ∃ t, d.lookup en.1 = some t ∧ t.shape = en.2.shape ∧ t.bytes.length = en.2.bytes.length := by
  unfold Fits
  cases d.lookup en.1 with
  | none => simp
  | some t => simp

theorem fits_of_layout {d d' : Dict} (h : layout d = layout d') {en : String × SavedTensor}
    (hf : Fits d' en) : Fits d en := by
  unfold Fits at *
  rw [lookup_layout h]; exact hf

theorem layout_poke_of_lookup {d : Dict} (hn : (d.map Prod.fst).Nodup) {name : String} {t : SavedTensor}
    (h : d.lookup name = some t) {bs : List Byte} (hb : bs.length ≤ t.bytes.length) :
    layout (pokeTensor name bs d) = layout d := by
  apply layout_poke
  rintro en hen rfl
  rw [lookup_of_mem_nodup hn hen] at h
  simp only [Option.some.injEq] at h
  rw [h]; exact hb

theorem nodup_of_layout {d d' : Dict} (h : layout d = layout d') (hn : (d'.map Prod.fst).Nodup) :
    (d.map Prod.fst).Nodup := by rw [layout_keys h]; exact hn

theorem bytes_of_layout {d d' : Dict} (h : layout d = layout d')
    (hb : ∀ en ∈ d', en.2.bytes.length < 2 ^ 63) : ∀ en ∈ d, en.2.bytes.length < 2 ^ 63 := by
  intro en hen
  have : (en.1, en.2.shape, en.2.bytes.length) ∈ layout d' := by
    rw [← h]; exact List.mem_map.2 ⟨en, hen, rfl⟩
  obtain ⟨en', h1, h2⟩ := List.mem_map.1 this
  have := hb en' h1
  simp only [Prod.mk.injEq] at h2
  omega

theorem fmtEntry_eq (en : String × SavedTensor) :
    fmtEntry en = fmtString en.1 ++ fmtInts en.2.shape ++ en.2.bytes := rfl

/-- A complete entry is read and stored. -/
theorem loadEntry_full {lim : Nat} (hl : lim < 2 ^ 63) {d : Dict} (hn : (d.map Prod.fst).Nodup)
    (hb : ∀ en ∈ d, en.2.bytes.length < 2 ^ 63) {en : String × SavedTensor} (hs : OkStr lim en.1)
    (hi : OkInts lim en.2.shape) (hf : Fits d en) (rest : List Byte) :
    loadEntry lim ⟨d, ⟨fmtEntry en ++ rest, false⟩⟩ =
      (.ok (), ⟨pokeTensor en.1 en.2.bytes d, ⟨rest, false⟩⟩) := by
  obtain ⟨t, h1, h2, h3⟩ := fits_iff.1 hf
  have hz : ZPre (fmtString en.1 ++ fmtInts en.2.shape) (fmtEntry en ++ rest) := by
    rw [fmtEntry_eq, List.append_assoc]
    exact zpre_self _ _
  rcases loadEntry_cases hl hn hb (s := ⟨fmtEntry en ++ rest, false⟩) (by simp [Inv]) with
    ⟨x, s', -, hno⟩ | ⟨name, t', h4, h5, h6, h7, h8⟩
  · exact absurd h2 (hno _ _ _ hz hs hi h1)
  · have e1 := fmtString_unique hl h5 hs (zpre_append.1 h7).1 (zpre_append.1 hz).1
    subst e1
    rw [h1] at h4
    simp only [Option.some.injEq] at h4
    subst h4
    rw [h8]
    have hlen : (fmtString en.1 ++ fmtInts t.shape).length + t.bytes.length = (fmtEntry en).length := by
      rw [fmtEntry_eq, h2, h3]; simp only [List.length_append]
    rw [hlen, adv_ok (by simp)]
    simp only [fmtEntry_eq, h2]
    rw [List.drop_append_of_le_length (by simp [List.length_append]), List.drop_left, h3, List.take_left,
      List.drop_left]

theorem layout_pokes {d : Dict} (hn : (d.map Prod.fst).Nodup) : ∀ {es : Dict}, (∀ en ∈ es, Fits d en) →
    layout (pokes es d) = layout d := by
  intro es
  induction es generalizing d with
  | nil => intro _; rfl
  | cons en es ih =>
    intro h
    obtain ⟨t, h1, h2, h3⟩ := fits_iff.1 (h en (by simp))
    have hl : layout (pokeTensor en.1 en.2.bytes d) = layout d :=
      layout_poke_of_lookup hn h1 (by omega)
    have := ih (d := pokeTensor en.1 en.2.bytes d) (nodup_of_layout hl hn)
      (fun x hx => fits_of_layout hl (h x (by simp [hx])))
    rw [← hl]
    exact this

/-- Reading a run of complete entries. -/
theorem loop_prefix {lim : Nat} (hl : lim < 2 ^ 63) : ∀ {es : Dict} {i n : Nat} {d : Dict} {rest : List Byte},
    (d.map Prod.fst).Nodup → (∀ en ∈ d, en.2.bytes.length < 2 ^ 63) → i + es.length < 2 ^ 31 →
    (∀ en ∈ es, OkStr lim en.1 ∧ OkInts lim en.2.shape ∧ Fits d en) →
    intLoop (loadEntry lim) i (es.length + n) ⟨d, ⟨es.flatMap fmtEntry ++ rest, false⟩⟩ =
      intLoop (loadEntry lim) (i + es.length) n ⟨pokes es d, ⟨rest, false⟩⟩
  | [], i, n, d, rest, _, _, _, _ => by simp [pokes]
  | en :: es, i, n, d, rest, hn, hb, hi, h => by
    simp only [List.length_cons] at hi
    obtain ⟨h1, h2, h3⟩ := h en (by simp)
    obtain ⟨t, h4, h5, h6⟩ := fits_iff.1 h3
    have hlay : layout (pokeTensor en.1 en.2.bytes d) = layout d :=
      layout_poke_of_lookup hn h4 (by omega)
    rw [show (en :: es).length + n = (es.length + n) + 1 by simp only [List.length_cons]; omega]
    conv_lhs => unfold intLoop
    rw [List.flatMap_cons, List.append_assoc, M.bind_ok (loadEntry_full hl hn hb h1 h2 h3 _),
      if_neg (by omega)]
    rw [loop_prefix hl (nodup_of_layout hlay hn) (bytes_of_layout hlay hb) (by omega)
      (fun x hx => ⟨(h x (by simp [hx])).1, (h x (by simp [hx])).2.1,
        fits_of_layout hlay (h x (by simp [hx])).2.2⟩)]
    rw [show i + 1 + es.length = i + (en :: es).length by simp only [List.length_cons]; omega]
    rfl

theorem lookup_pokes {d : Dict} (hn : (d.map Prod.fst).Nodup) : ∀ {es : Dict}, (∀ en ∈ es, Fits d en) →
    (es.map Prod.fst).Nodup → ∀ k, (pokes es d).lookup k =
      match es.lookup k with
      | some t => some t
      | none => d.lookup k := by
  intro es
  induction es generalizing d with
  | nil => intro _ _ k; rfl
  | cons en es ih =>
    intro h hnd k
    rcases en with ⟨n, v⟩
    simp only [List.map_cons, List.nodup_cons] at hnd
    obtain ⟨t, h1, h2, h3⟩ := fits_iff.1 (h (n, v) (by simp))
    simp only at h1 h2 h3
    have hl : layout (pokeTensor n v.bytes d) = layout d :=
      layout_poke_of_lookup hn h1 (by omega)
    have := ih (d := pokeTensor n v.bytes d) (nodup_of_layout hl hn)
      (fun x hx => fits_of_layout hl (h x (by simp [hx]))) hnd.2 k
    have hp : pokes ((n, v) :: es) d = pokes es (pokeTensor n v.bytes d) := rfl
    rw [hp, this, lookup_poke, List.lookup_cons]
    by_cases hk : k = n
    · subst hk
      rw [lookup_none hnd.1, h1]
      simp only [beq_self_eq_true, Option.map_some, if_true]
      rw [List.drop_eq_nil_of_le (by omega), List.append_nil, h2]
    · rw [beq_false_of_ne hk]
      cases es.lookup k with
      | some t => rfl
      | none =>
        simp only [if_neg hk]
        cases d.lookup k <;> rfl

/-! ### Any input -/

/-- If the loop body cannot be undefined and preserves `P`, neither can the loop unless it runs
`2^31` times. -/
theorem leNat_zeros : ∀ n, leNat (List.replicate n 0) = 0
  | 0 => rfl
  | n + 1 => by rw [List.replicate_succ, leNat, leNat_zeros n]; rfl

theorem readString_nil {lim : Nat} (hl : lim < 2 ^ 63) {s : IStream} (h : Inv s) (hd : s.data = []) :
    readString lim s = (.ok "", adv 8 s) := by
  have : ZPre (fmtString "") s.data := by
    rw [hd]
    intro i hi
    have : fmtString "" = List.replicate 8 0 := by decide
    rw [this] at hi ⊢
    rw [List.getElem?_replicate, if_pos (by simpa using hi)]
    rfl
  have := readString_of_zpre hl h ⟨by intro c hc; simp at hc, by simp⟩ this
  rw [this]
  rfl

theorem loadEntry_exhausted {lim : Nat} (hl : lim < 2 ^ 63) {d : Dict} (hd : "" ∉ d.map Prod.fst)
    {s : IStream} (h : Inv s) (hs : s.data = []) :
    loadEntry lim ⟨d, s⟩ = (.throw .dw, ⟨d, adv 8 s⟩) := by
  unfold loadEntry
  rw [M.bind_ok (onFile_eq (readString_nil hl h hs))]
  simp only [M.bind_ok (M.get_apply _), lookup_none hd]
  rfl

/-- Everything `load_state`'s loop can do, on any input: it keeps the layout of the dict; it is
undefined only if the loop counter overflows; and if it succeeds, the file (continued by zeros)
consisted of entries of the dict. -/
theorem loop_any {lim : Nat} (hl : lim < 2 ^ 63) : ∀ (n i : Nat) {d : Dict} {s : IStream},
    (d.map Prod.fst).Nodup → (∀ en ∈ d, en.2.bytes.length < 2 ^ 63) → Inv s →
    let r := intLoop (loadEntry lim) i n ⟨d, s⟩
    layout r.2.dict = layout d ∧
    ("" ∉ d.map Prod.fst → (s.failed = true ∨ 16 * i + s.data.length < 16 * (2 ^ 31 - 1)) →
      r.1.isUb = false) ∧
    (r.1 = .ok () → ∃ es : Dict, es.length = n ∧ r.2.dict = pokes es d ∧
      (∀ en ∈ es, OkStr lim en.1 ∧ ∃ t, d.lookup en.1 = some t ∧ t.shape = en.2.shape ∧
        en.2.bytes.length ≤ t.bytes.length) ∧
      (r.2.file.failed = false → s.data = es.flatMap fmtEntry ++ r.2.file.data ∧
        ∀ en ∈ es, Fits d en))
  | 0, i, d, s, hn, hb, h => by
    refine ⟨rfl, fun _ _ => rfl, fun _ => ⟨[], rfl, rfl, by simp, ?_⟩⟩
    intro _
    simp [intLoop]
  | n + 1, i, d, s, hn, hb, h => by
    unfold intLoop
    simp only
    rcases loadEntry_cases hl hn hb h with ⟨x, s', h1, -⟩ | ⟨name, t, h4, h5, h6, h7, h8⟩
    · rw [M.bind_throw h1]
      exact ⟨rfl, fun _ _ => rfl, fun hc => by simp at hc⟩
    · rw [M.bind_ok h8]
      generalize hbs : (s.data.drop (fmtString name ++ fmtInts t.shape).length).take t.bytes.length = bs at h8 ⊢
      have hbl : bs.length ≤ t.bytes.length := by rw [← hbs]; simp only [List.length_take]; omega
      have hlay : layout (pokeTensor name bs d) = layout d := layout_poke_of_lookup hn h4 hbl
      have hkeys := layout_keys hlay
      have hlen : 16 ≤ (fmtString name ++ fmtInts t.shape).length := by
        simp only [List.length_append, fmtString_length, fmtInts_length]; omega
      generalize hk : (fmtString name ++ fmtInts t.shape).length = k at *
      by_cases hi : i + 1 = 2 ^ 31
      · rw [if_pos hi]
        refine ⟨hlay, fun he hor => ?_, fun hc => by simp at hc⟩
        exfalso
        rcases hor with hf | hlt
        · rw [loadEntry_exhausted hl he h (h hf)] at h8
          simp at h8
        · omega
      · rw [if_neg hi]
        obtain ⟨a1, a2, a3⟩ := loop_any hl n (i + 1) (d := pokeTensor name bs d)
          (s := adv (k + t.bytes.length) s) (nodup_of_layout hlay hn) (bytes_of_layout hlay hb)
          (inv_adv h _)
        refine ⟨a1.trans hlay, fun he hor => ?_, fun hok => ?_⟩
        · apply a2 (by rw [hkeys]; exact he)
          rcases hor with hf | hlt
          · rw [loadEntry_exhausted hl he h (h hf)] at h8
            simp at h8
          · by_cases hsh : s.data.length < k + t.bytes.length
            · left; simp [adv, hsh]
            · right
              simp only [adv, List.length_drop]
              omega
        · obtain ⟨es, e1, e2, e3, e4⟩ := a3 hok
          refine ⟨(name, ⟨t.shape, bs⟩) :: es, by simp [e1], e2, ?_, ?_⟩
          · intro en hen
            rcases List.mem_cons.1 hen with rfl | hen
            · exact ⟨h5, t, h4, rfl, hbl⟩
            · obtain ⟨f1, t', f2, f3, f4⟩ := e3 en hen
              have := lookup_layout hlay en.1
              rw [f2] at this
              cases hd : d.lookup en.1 with
              | none => rw [hd] at this; simp at this
              | some t'' =>
                rw [hd] at this
                simp only [Option.map_some, Option.some.injEq, Prod.mk.injEq] at this
                exact ⟨f1, t'', rfl, by rw [← this.1]; exact f3, by rw [← this.2]; exact f4⟩
          · intro hnf
            obtain ⟨g1, g2⟩ := e4 hnf
            -- nothing can have failed before
            have hfail : (adv (k + t.bytes.length) s).failed = false := by
              by_contra hc
              simp only [Bool.not_eq_false] at hc
              have hmono : ∀ (n i : Nat) (d : Dict) (s : IStream), s.failed = true →
                  (intLoop (loadEntry lim) i n ⟨d, s⟩).2.file.failed = true := by
                intro n
                induction n with
                | zero => intro i d s hs; exact hs
                | succ n ih =>
                  intro i d s hs
                  have hrb : ∀ m, (readBytes m s) = (.ok [], s) := fun m => by simp [readBytes, hs]
                  have hsz : readSize s = (.ok 0, s) := by
                    unfold readSize readZeroed
                    simp only [M.bind_apply, hrb, M.pure_apply, List.nil_append, leNat_zeros]
                  have hst : readString lim s = (.ok "", s) := by
                    unfold readString resize readZeroed
                    simp only [M.bind_apply, hsz, hrb, M.pure_apply, M.lift_apply, Nat.zero_mul, Nat.zero_le, if_true]
                    rfl
                  have hin : readInts lim s = (.ok [], s) := by
                    unfold readInts resize readZeroed
                    simp only [M.bind_apply, hsz, hrb, M.pure_apply, M.lift_apply, Nat.zero_mul, Nat.zero_le, if_true]
                    rfl
                  have hle : (loadEntry lim ⟨d, s⟩).2.file = s := by
                    unfold loadEntry
                    rw [M.bind_ok (onFile_eq hst)]
                    simp only [M.bind_ok (M.get_apply _)]
                    cases d.lookup "" with
                    | none => rfl
                    | some t =>
                      simp only
                      rw [M.bind_ok (onFile_eq hin)]
                      by_cases hc : (t.shape == []) = true
                      · rw [hc, M.bind_ok (M.check_true_apply _), M.bind_ok (onFile_eq (hrb _))]
                        rfl
                      · simp only [Bool.not_eq_true] at hc
                        rw [hc, M.bind_throw (M.check_false_apply _)]
                  unfold intLoop
                  rw [M.bind_apply]
                  rcases hx : loadEntry lim ⟨d, s⟩ with ⟨o, d', s'⟩
                  rw [hx] at hle
                  simp only at hle
                  subst hle
                  cases o with
                  | throw x => exact hs
                  | ub x => exact hs
                  | ok u =>
                    simp only
                    split
                    · exact hs
                    · exact ih _ _ _ hs
              have := hmono n (i + 1) (pokeTensor name bs d) _ hc
              rw [this] at hnf
              simp at hnf
            simp only [adv, Bool.or_eq_false_iff, decide_eq_false_iff_not, Nat.not_lt] at hfail
            have hbs2 : bs.length = t.bytes.length := by
              rw [← hbs]; simp only [List.length_take, List.length_drop]; omega
            refine ⟨?_, ?_⟩
            · have hz := zpre_length_le h7 (by rw [hk]; omega)
              rw [hk] at hz
              have hd2 : s.data.drop k = bs ++ s.data.drop (k + t.bytes.length) := by
                rw [← hbs, ← List.drop_drop, List.take_append_drop]
              rw [List.flatMap_cons, fmtEntry_eq, List.append_assoc, List.append_assoc, ← g1]
              simp only [adv]
              rw [← hd2]
              exact hz
            · intro en hen
              rcases List.mem_cons.1 hen with rfl | hen
              · exact fits_iff.2 ⟨t, h4, rfl, hbs2.symm⟩
              · exact fits_of_layout hlay.symm (g2 en hen)

/-! ### Truncated input -/

/-- Keys of an ordinary dict: no empty key, no NUL character. -/
def NoNul (d : Dict) : Prop := ∀ k ∈ d.map Prod.fst, k ≠ "" ∧ Char.ofNat 0 ∉ k.toList

theorem charByte_eq_zero {c : Char} (hc : c.toNat < 256) (h : charByte c = 0) : c = Char.ofNat 0 := by
  have := congrArg byteChar h
  rw [byteChar_charByte hc] at this
  rw [this]
  decide

/-- A complete name found at the front of a truncated entry is the entry's own name, and it was not
cut. -/
theorem name_of_cut {lim : Nat} (hl : lim < 2 ^ 63) {name name' : String} {tail : List Byte} {m : Nat}
    (hn : OkStr lim name) (hn' : OkStr lim name') (hne : name' ≠ "") (hnul : Char.ofNat 0 ∉ name'.toList)
    (hz : ZPre (fmtString name') ((fmtString name ++ tail).take m)) :
    name' = name ∧ (fmtString name).length ≤ m := by
  -- every byte of the name is non-zero
  have hbyte : ∀ j : Nat, j < name'.length → ∃ b, (stringBytes name')[j]? = some b ∧ b ≠ 0 := by
    intro j hj
    have hj' : j < (stringBytes name').length := by simpa using hj
    refine ⟨_, List.getElem?_eq_getElem hj', ?_⟩
    intro h0
    have hjl : j < name'.toList.length := by rw [String.length_toList]; exact hj
    have : (stringBytes name')[j] = charByte (name'.toList[j]'hjl) := by simp [stringBytes]
    rw [this] at h0
    have := charByte_eq_zero (hn'.1 _ (List.getElem_mem hjl)) h0
    exact hnul (this ▸ List.getElem_mem hjl)
  have hpos : 0 < name'.length := by
    rcases Nat.eq_zero_or_pos name'.length with h0 | h0
    · exfalso
      apply hne
      rw [← String.toList_inj]
      exact List.length_eq_zero_iff.1 (by rw [String.length_toList]; exact h0)
    · exact h0
  have hlast : 8 + name'.length ≤ m := by
    by_contra hc
    obtain ⟨b, h1, h2⟩ := hbyte (name'.length - 1) (by omega)
    have := hz (8 + (name'.length - 1)) (by simp; omega)
    unfold fmtString at this
    rw [List.getElem?_append_right (by simp), fmtSize_length, Nat.add_sub_cancel_left, h1,
      List.getElem?_eq_none (by simp only [List.length_take]; omega)] at this
    simp only [Option.getD_none, Option.some.injEq] at this
    exact h2 this
  -- the untruncated data has the same prefix
  have hz2 : ZPre (fmtString name') (fmtString name ++ tail) := by
    intro i hi
    have := hz i hi
    rw [fmtString_length] at hi
    rw [this, List.getElem?_take_of_lt (by omega)]
  have := fmtString_unique hl hn' hn hz2 (zpre_self _ _)
  subst this
  exact ⟨rfl, by simpa using hlast⟩

/-- The loop body on an entry cut after `m` bytes. -/
theorem loadEntry_cut {lim : Nat} (hl : lim < 2 ^ 63) {d : Dict} (hn : (d.map Prod.fst).Nodup)
    (hb : ∀ en ∈ d, en.2.bytes.length < 2 ^ 63) (hnn : NoNul d) {en : String × SavedTensor}
    (hs : OkStr lim en.1) (hi : OkInts lim en.2.shape) (hf : Fits d en) {m : Nat}
    (hm : m < (fmtEntry en).length) :
    let head := fmtString en.1 ++ fmtInts en.2.shape
    ((fmtString en.1).length ≤ m ∧ (∀ b ∈ head.drop m, b = 0) ∧
      ∃ s', loadEntry lim ⟨d, ⟨(fmtEntry en).take m, false⟩⟩ =
        (.ok (), ⟨pokeTensor en.1 (en.2.bytes.take (m - head.length)) d, s'⟩) ∧ Inv s' ∧ s'.data = []) ∨
    (¬ ((fmtString en.1).length ≤ m ∧ ∀ b ∈ head.drop m, b = 0) ∧
      ∃ x s', loadEntry lim ⟨d, ⟨(fmtEntry en).take m, false⟩⟩ = (.throw x, ⟨d, s'⟩)) := by
  intro head
  obtain ⟨t, h1, h2, h3⟩ := fits_iff.1 hf
  have hinv : Inv ⟨(fmtEntry en).take m, false⟩ := by simp [Inv]
  have hfe : fmtEntry en = head ++ en.2.bytes := rfl
  -- the head with its omitted bytes
  have hzero : (∀ b ∈ head.drop m, b = 0) → ZPre head ((fmtEntry en).take m) := by
    intro hz i hi'
    by_cases him : i < m
    · rw [List.getElem?_take_of_lt him, hfe, List.getElem?_append_left hi', List.getElem?_eq_getElem hi']
      rfl
    · rw [List.getElem?_eq_none (l := (fmtEntry en).take m) (by simp only [List.length_take]; omega),
        List.getElem?_eq_getElem hi']
      have : head[i] ∈ head.drop m := by
        rw [List.mem_iff_getElem]
        refine ⟨i - m, by simp; omega, ?_⟩
        rw [List.getElem_drop]
        congr 1
        omega
      rw [hz _ this]
      rfl
  rcases loadEntry_cases hl hn hb hinv with ⟨x, s', h4, hno⟩ | ⟨name, t', h4, h5, h6, h7, h8⟩
  · right
    refine ⟨?_, x, s', h4⟩
    rintro ⟨-, hz⟩
    exact hno _ _ _ (hzero hz) hs hi h1 h2
  · left
    obtain ⟨hne, hnul⟩ := hnn name (lookup_key h4)
    have h7' := (zpre_append.1 h7).1
    rw [fmtEntry_eq, List.append_assoc] at h7'
    obtain ⟨rfl, hlen⟩ := name_of_cut hl hs h5 hne hnul h7'
    rw [h1] at h4
    simp only [Option.some.injEq] at h4
    subst h4
    rw [h2] at h7 h8
    refine ⟨hlen, ?_, ?_⟩
    · intro b hbm
      obtain ⟨j, hj, hjb⟩ := List.getElem_of_mem hbm
      rw [List.getElem_drop] at hjb
      have hj' : m + j < head.length := by simp only [List.length_drop] at hj; omega
      have := h7 (m + j) hj'
      rw [List.getElem?_eq_none (l := (fmtEntry en).take m) (by simp only [List.length_take]; omega)] at this
      have h9 : head[m + j]? = some 0 := this
      rw [List.getElem?_eq_getElem hj', hjb] at h9
      simpa using h9
    · refine ⟨adv (head.length + t.bytes.length) ⟨(fmtEntry en).take m, false⟩, ?_, inv_adv hinv _, ?_⟩
      · rw [h8]
        congr 3
        show ((fmtEntry en).take m |>.drop head.length).take t.bytes.length = _
        rw [hfe, List.take_append, List.drop_append]
        have e1 : (head.take m).drop head.length = [] :=
          List.drop_eq_nil_of_le (by simp only [List.length_take]; omega)
        rw [e1, List.nil_append]
        have e2 : head.length - (head.take m).length = head.length - m := by
          simp only [List.length_take]; omega
        rw [e2, h3, List.drop_take, List.take_take]
        by_cases hmh : head.length ≤ m
        · rw [show head.length - m = 0 by omega, List.drop_zero]
          congr 1
          have := hm
          rw [hfe, List.length_append] at this
          omega
        · rw [show m - head.length = 0 by omega]
          simp
      · simp only [adv]
        apply List.drop_eq_nil_of_le
        have : (head ++ en.2.bytes).length = head.length + t.bytes.length := by
          rw [List.length_append, h3]
        show ((fmtEntry en).take m).length ≤ head.length + t.bytes.length
        rw [hfe, List.length_take, this]
        omega

end DW.SerL
