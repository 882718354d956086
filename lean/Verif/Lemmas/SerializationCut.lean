import Verif.Lemmas.SerializationLoad
/-!
# Header, cuts and failing loads
-/

set_option autoImplicit false

namespace DW.SerL

open DW DW.Spec

theorem leNat_append_zeros : ∀ (l : List Byte) (n : Nat), leNat (l ++ List.replicate n 0) = leNat l
  | [], n => leNat_zeros n
  | b :: l, n => by simp only [List.cons_append, leNat, leNat_append_zeros l n]

theorem take_leBytes : ∀ (j k n : Nat), (leBytes k n).take j = leBytes (min j k) n
  | 0, k, n => by simp [leBytes]
  | j + 1, 0, n => by simp [leBytes]
  | j + 1, k + 1, n => by
    rw [show min (j + 1) (k + 1) = min j k + 1 by omega]
    simp only [leBytes, List.take_succ_cons, take_leBytes j k]

theorem leNat_padTake (n : Nat) (data : List Byte) : leNat (padTake n data) = leNat (data.take n) :=
  leNat_append_zeros _ _

theorem intBytes_zero : intBytes 0 = List.replicate 4 0 := by decide

theorem bytesInt_zeros (n : Nat) : bytesInt (List.replicate n 0) = 0 := by
  have h : leNat (List.replicate n 0) = 0 := leNat_zeros n
  unfold bytesInt
  rw [h]
  rfl

/-- `load_state` on any stream: the kind, the count, the loop. -/
theorem loadState_eq {lim : Nat} {d : Dict} {s : IStream} (h : Inv s) :
    loadState lim ⟨d, s⟩ =
      if bytesInt (padTake 4 s.data) = 0 then
        intLoop (loadEntry lim) 0 (leNat (padTake 8 (s.data.drop 4))) ⟨d, adv 12 s⟩
      else (.throw .dw, ⟨d, adv 4 s⟩) := by
  unfold loadState
  rw [M.bind_ok (onFile_eq (readInt_eq h))]
  by_cases hk : bytesInt (padTake 4 s.data) = 0
  · rw [if_pos hk, hk]
    have hch : ((0 : Int) == kindState) = true := by decide
    rw [hch, M.bind_ok (M.check_true_apply _), M.bind_ok (onFile_eq (readSize_eq (inv_adv h 4))), adv_adv]
    rfl
  · rw [if_neg hk]
    have hch : (bytesInt (padTake 4 s.data) == kindState) = false := by
      simpa [kindState] using hk
    rw [hch, M.bind_throw (M.check_false_apply _)]

theorem padTake_of_prefix {p rest : List Byte} : padTake p.length (p ++ rest) = p := by
  unfold padTake
  rw [List.take_left]
  simp

theorem loadState_header {lim : Nat} {d : Dict} {n : Nat} (hn : n < 2 ^ 64) (rest : List Byte) :
    loadState lim ⟨d, ⟨intBytes 0 ++ fmtSize n ++ rest, false⟩⟩ =
      intLoop (loadEntry lim) 0 n ⟨d, ⟨rest, false⟩⟩ := by
  rw [loadState_eq (by simp [Inv]), List.append_assoc]
  have h1 : padTake 4 (intBytes 0 ++ (fmtSize n ++ rest)) = intBytes 0 := by
    have := padTake_of_prefix (p := intBytes 0) (rest := fmtSize n ++ rest)
    rwa [intBytes_length] at this
  have h2 : padTake 8 ((intBytes 0 ++ (fmtSize n ++ rest)).drop 4) = fmtSize n := by
    rw [List.drop_left' (intBytes_length 0)]
    have := padTake_of_prefix (p := fmtSize n) (rest := rest)
    rwa [fmtSize_length] at this
  simp only
  rw [h1, h2, if_pos (by decide), fmtSize, leNat_leBytes, Nat.mod_eq_of_lt (by omega)]
  rw [adv_ok (by simp; omega), ← List.append_assoc]
  have : (intBytes 0 ++ leBytes 8 n).length = 12 := by simp
  rw [List.drop_left' this]

/-- Where a cut falls. -/
theorem cut_split : ∀ {d : Dict} {m : Nat}, m < (d.flatMap fmtEntry).length →
    ∃ pre en post m', d = pre ++ en :: post ∧ m = (pre.flatMap fmtEntry).length + m' ∧
      m' < (fmtEntry en).length ∧
      (d.flatMap fmtEntry).take m = pre.flatMap fmtEntry ++ (fmtEntry en).take m'
  | [], m, h => by simp at h
  | en :: d, m, h => by
    by_cases hm : m < (fmtEntry en).length
    · refine ⟨[], en, d, m, rfl, by simp, hm, ?_⟩
      rw [List.flatMap_cons, List.take_append_of_le_length (by omega)]
      simp
    · have h' : m - (fmtEntry en).length < (d.flatMap fmtEntry).length := by
        rw [List.flatMap_cons, List.length_append] at h
        omega
      obtain ⟨pre, en', post, m', h1, h2, h3, h4⟩ := cut_split h'
      refine ⟨en :: pre, en', post, m', by simp [h1], ?_, h3, ?_⟩
      · rw [List.flatMap_cons, List.length_append]; omega
      · rw [List.flatMap_cons, List.take_append, List.take_of_length_le (by omega), h4,
          List.flatMap_cons, List.append_assoc]

/-- A failing load has stored some entries completely and nothing else. -/
theorem loop_throw {lim : Nat} (hl : lim < 2 ^ 63) : ∀ (n i : Nat) {d : Dict} {s : IStream} {x : Exn},
    (d.map Prod.fst).Nodup → (∀ en ∈ d, en.2.bytes.length < 2 ^ 63) → Inv s →
    (intLoop (loadEntry lim) i n ⟨d, s⟩).1 = .throw x →
    ∃ es : Dict, es.length < n ∧ (intLoop (loadEntry lim) i n ⟨d, s⟩).2.dict = pokes es d ∧
      ∀ en ∈ es, ∃ t, d.lookup en.1 = some t ∧ t.shape = en.2.shape ∧
        en.2.bytes.length ≤ t.bytes.length
  | 0, i, d, s, x, _, _, _, h => by simp [intLoop] at h
  | n + 1, i, d, s, x, hn, hb, hi, h => by
    unfold intLoop at h ⊢
    rcases loadEntry_cases hl hn hb hi with ⟨y, s', h1, -⟩ | ⟨name, t, h4, h5, h6, h7, h8⟩
    · rw [M.bind_throw h1]
      exact ⟨[], by simp, rfl, by simp⟩
    · rw [M.bind_ok h8] at h ⊢
      generalize hbs : (s.data.drop (fmtString name ++ fmtInts t.shape).length).take t.bytes.length = bs at *
      have hbl : bs.length ≤ t.bytes.length := by rw [← hbs]; simp only [List.length_take]; omega
      have hlay : layout (pokeTensor name bs d) = layout d := layout_poke_of_lookup hn h4 hbl
      split at h
      · simp at h
      · rename_i hne
        rw [if_neg hne]
        obtain ⟨es, e1, e2, e3⟩ := loop_throw hl n (i + 1) (nodup_of_layout hlay hn)
          (bytes_of_layout hlay hb) (inv_adv hi _) h
        refine ⟨(name, ⟨t.shape, bs⟩) :: es, by simp; omega, e2, ?_⟩
        intro en hen
        rcases List.mem_cons.1 hen with rfl | hen
        · exact ⟨t, h4, rfl, hbl⟩
        · obtain ⟨t', f2, f3, f4⟩ := e3 en hen
          have := lookup_layout hlay en.1
          rw [f2] at this
          cases hd : d.lookup en.1 with
          | none => rw [hd] at this; simp at this
          | some t'' =>
            rw [hd] at this
            simp only [Option.map_some, Option.some.injEq, Prod.mk.injEq] at this
            exact ⟨t'', rfl, by rw [← this.1]; exact f3, by rw [← this.2]; exact f4⟩

end DW.SerL
