import Verif.Lemmas.NpyBytes

/-!
# C153: the bytes of files of samples
-/

namespace Verif

open Spec

private theorem length_open : npyOpen.length = 11 := by decide +kernel

private theorem length_middle : npyMiddle.length = 36 := by decide +kernel

private theorem length_close : npyClose.length = 3 := by decide +kernel

/-- **C153 (possible).** Samples of any number that fits 64 bits can be dumped. -/
theorem C153_possible (a : NpyArray) (h : a.items.count < 2 ^ 63) : ∃ bs, npyBytes a = some bs := by
  have h1 := decimal_length a.items.count 19 (by norm_num) (lt_trans h (by norm_num))
  have h2 : (npyDescr a.items).length = 3 := by cases a.items <;> rfl
  have h3 : (npyShape a).length ≤ 22 := by
    unfold npyShape; split_ifs
    · simp
    · simp only [List.length_cons, List.length_append, List.length_nil]; omega
  have h4 : (npyDict a).length ≤ 96 := by
    unfold npyDict
    simp only [List.length_append, List.length_replicate, length_open, length_middle, length_close, h2]
    split_ifs <;> omega
  have h5 : (npyHeader a).length < 2 ^ 16 := by
    unfold npyHeader
    simp only [List.length_append, List.length_replicate, List.length_cons, List.length_nil]
    omega
  exact ⟨_, if_pos h5⟩

/-- **C153 (read back).** A dump that finished gives the same values of the same kind in the same order, and a
single value as a single value. -/
theorem C153_round_trip {a : NpyArray} (ha : a.Ok) {bs : Bytes} (h : npyBytes a = some bs) (allowPickle : Bool)
    (old : Bytes) : npyLoad allowPickle (writtenFile old bs bs.length) = .ok a := by
  have := npyLoad_take allowPickle ha h [] bs.length
  rw [List.append_nil] at this
  rw [writtenFile, this]
  have hl := npyBytes_length h
  rw [if_neg (by omega), if_neg (by omega), if_neg (by omega)]
  rw [List.append_nil, List.take_of_length_le (by omega), afterHeader]
  have := readItems_npyData a.items []
  rw [List.append_nil] at this
  rw [this]

/-- **C153 (stopped while writing).** However many bytes of the dump had been written, if not all of them, loading is
an error: `EOFError` for the empty file, otherwise `ValueError` (for the files of the cores also
`UnpicklingError`); never fewer or other samples, and not the samples of the file that was there before. -/
theorem C153_crash {a : NpyArray} (ha : a.Ok) {bs : Bytes} (h : npyBytes a = some bs) (allowPickle : Bool)
    (old : Bytes) {k : ℕ} (hk : k < bs.length) :
    npyLoad allowPickle (writtenFile old bs k) = .error
      (if k = 0 then .eof else if allowPickle = true ∧ k < 6 then .unpickling else .value) := by
  have := npyLoad_take allowPickle ha h [] k
  rw [List.append_nil] at this
  rw [writtenFile, this]
  have hl := npyBytes_length h
  by_cases h0 : k = 0
  · rw [if_pos h0, if_pos h0]
  rw [if_neg h0, if_neg h0]
  by_cases h6 : k < 6
  · rw [if_pos h6]; cases allowPickle <;> simp [h6]
  have he : ¬ (allowPickle = true ∧ k < 6) := fun e => h6 e.2
  rw [if_neg h6, if_neg he]
  by_cases hh : k < 10 + (npyHeader a).length
  · rw [if_pos hh]
  rw [if_neg hh, List.append_nil, afterHeader, readItems_short]
  rw [List.length_take]; omega

/-- **C153 (no mixture).** Whatever the file held before, a load after a dump that stopped anywhere either raises or
gives exactly the new samples. -/
theorem C153_all_or_error {a : NpyArray} (ha : a.Ok) {bs : Bytes} (h : npyBytes a = some bs) (allowPickle : Bool)
    (old : Bytes) (k : ℕ) {got : NpyArray} (hg : npyLoad allowPickle (writtenFile old bs k) = .ok got) : got = a := by
  by_cases hk : k < bs.length
  · rw [C153_crash ha h allowPickle old hk] at hg; exact absurd hg (by simp)
  · have h1 := C153_round_trip ha h allowPickle old
    rw [writtenFile, List.take_of_length_le (by omega)] at hg
    rw [writtenFile, List.take_length, hg] at h1
    exact Except.ok.inj h1

/-- **C153 (different samples).** Different samples give different files. -/
theorem C153_injective {a b : NpyArray} (ha : a.Ok) (hb : b.Ok) {bs : Bytes} (h : npyBytes a = some bs)
    (h' : npyBytes b = some bs) : a = b :=
  Except.ok.inj ((C153_round_trip ha h false []).symm.trans (C153_round_trip hb h' false []))

/-- **C153 (extra bytes).** Unlike for `bayesnet` (`C152_trailing`), bytes after a complete dump are not noticed. -/
theorem C153_trailing {a : NpyArray} (ha : a.Ok) {bs : Bytes} (h : npyBytes a = some bs) (allowPickle : Bool)
    (extra : Bytes) : npyLoad allowPickle (bs ++ extra) = .ok a := by
  have := npyLoad_take allowPickle ha h extra (bs ++ extra).length
  rw [List.take_length] at this
  rw [this]
  have hl := npyBytes_length h
  rw [List.length_append, if_neg (by omega), if_neg (by omega), if_neg (by omega),
    List.take_of_length_le (by rw [List.length_append]; omega), afterHeader, readItems_npyData]

/-- **C153 (aligned).** The values start at a multiple of 64 bytes. -/
theorem C153_aligned {a : NpyArray} {bs : Bytes} (h : npyBytes a = some bs) :
    ∃ start, start % 64 = 0 ∧ bs.drop start = npyData a.items := by
  refine ⟨10 + (npyHeader a).length, ?_, ?_⟩
  · unfold npyHeader
    simp only [List.length_append, List.length_replicate, List.length_cons, List.length_nil]
    omega
  · unfold npyBytes at h
    split_ifs at h
    obtain rfl := Option.some.inj h
    rw [← List.append_assoc, ← List.append_assoc, ← List.append_assoc]
    exact List.drop_left' (by simp [npyMagic, littleEndian_length]; omega)

/-! ## Concrete cases -/

/-- `np.array([1.0, 2.0])` -/
private def oneTwo : NpyArray := ⟨false, .f8 [0x3FF0000000000000, 0x4000000000000000]⟩

example : oneTwo.Ok := by simp [NpyArray.Ok, oneTwo]

example : ∃ bs, npyBytes oneTwo = some bs := C153_possible oneTwo (by decide)

example : npyShape oneTwo = textBytes "(2,)" := by
  have h : decimal 2 = [50] := by rw [decimal]; rfl
  simp only [npyShape, oneTwo, NpyItems.count, List.length_cons, List.length_nil, Nat.zero_add, h]
  decide +kernel

example : npyData oneTwo.items = [0, 0, 0, 0, 0, 0, 240, 63, 0, 0, 0, 0, 0, 0, 0, 64] := by decide +kernel

example : decimal 1000 = textBytes "1000" := by
  have h : decimal 1000 = [49, 48, 48, 48] := by
    rw [decimal, if_neg (by norm_num), decimal, if_neg (by norm_num), decimal, if_neg (by norm_num), decimal,
      if_pos (by norm_num)]
    rfl
  rw [h]; decide +kernel

end Verif
