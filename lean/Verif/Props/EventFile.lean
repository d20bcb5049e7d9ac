import Verif.Lemmas.MsgPack

/-!
# C152: the bytes of cache files
-/

namespace Verif

open Spec

/-- The cache as a value. -/
private def cacheVal (events : List PyVal) (n : ℤ) (now : String) : PyVal :=
  .dict [("events", .list events), ("metadata", .dict [("n", .int n), ("last_generated", .str now)])]

private theorem load_eq {events : List PyVal} {n : ℤ} {now : String} {bs : Bytes}
    (h : cacheBytes events n now = some bs) : loadBytes bs = .ok (events.map asRead, n) := by
  have h1 : decodeBytes bs = .ok (asRead (cacheVal events n now)) := decodeBytes_encVal h
  rw [loadBytes, h1]
  simp [cacheVal, asRead, asReadItems, lookupKey, asReadAll_eq_map, bind, Except.bind]

/-- **C152 (read back).** A dump that finished gives the number of samples and all the events back, in order;
tuples have become lists and nothing else has changed. -/
theorem C152_round_trip {events : List PyVal} {n : ℤ} {now : String} {bs : Bytes}
    (h : cacheBytes events n now = some bs) (old : Bytes) :
    loadBytes (writtenFile old bs bs.length) = .ok (events.map asRead, n) := by
  rw [writtenFile, List.take_length]; exact load_eq h

/-- **C152 (stopped while writing).** However many bytes of the dump had been written, if not all of them, loading
the file is an error: never fewer events, never other events, and not the events of the file that was there before
either. -/
theorem C152_crash {events : List PyVal} {n : ℤ} {now : String} {bs : Bytes}
    (h : cacheBytes events n now = some bs) (old : Bytes) {k : ℕ} (hk : k < bs.length) :
    loadBytes (writtenFile old bs k) = .error .decodeError := by
  have e : encVal (cacheVal events n now) = some (bs.take k ++ bs.drop k) := by
    rw [List.take_append_drop]; exact h
  have h1 := decodeBytes_prefix e (by simp; omega)
  rw [loadBytes, writtenFile, h1]; rfl

/-- **C152 (no mixture).** Whatever the file held before (any bytes), after a dump stopped anywhere a
load that succeeds gives exactly the new events and the new number. -/
theorem C152_all_or_error {events : List PyVal} {n : ℤ} {now : String} {bs : Bytes}
    (h : cacheBytes events n now = some bs) (old : Bytes) (k : ℕ) {got : List PyVal × ℤ}
    (hg : loadBytes (writtenFile old bs k) = .ok got) : got = (events.map asRead, n) := by
  by_cases hk : k < bs.length
  · rw [C152_crash h old hk] at hg; exact absurd hg (by simp)
  · rw [writtenFile, List.take_of_length_le (by omega), load_eq h] at hg
    exact (Except.ok.inj hg).symm

/-- **C152 (extra bytes).** A complete dump with anything after it is an error as well. -/
theorem C152_trailing {events : List PyVal} {n : ℤ} {now : String} {bs extra : Bytes}
    (h : cacheBytes events n now = some bs) (he : extra ≠ []) : loadBytes (bs ++ extra) = .error .decodeError := by
  rw [loadBytes, decodeBytes_trailing (v := cacheVal events n now) h he]; rfl

/-- **C152 (what can be dumped).** With a number of samples of 64 bits and a time of ordinary length, the dump is
possible exactly if there are fewer than `2 ^ 32` events and each can be stored. -/
theorem C152_refuses (events : List PyVal) {n : ℤ} (hn : 0 ≤ n ∧ n < 2 ^ 64) {now : String}
    (ht : now.utf8ByteSize < 2 ^ 32) :
    (∃ bs, cacheBytes events n now = some bs) ↔ events.length < 2 ^ 32 ∧ ∀ e ∈ events, Storable e := by
  rw [← Option.isSome_iff_exists, cacheBytes, encVal_isSome, ← storableAll_iff]
  have a : ShortEnough ("events".utf8ByteSize) := by decide
  have b : ShortEnough ("metadata".utf8ByteSize) := by decide
  have c : ShortEnough ("n".utf8ByteSize) := by decide
  have d : ShortEnough ("last_generated".utf8ByteSize) := by decide
  have e1 : ShortEnough 1 := by decide
  have e2 : ShortEnough 2 := by decide
  have hr : -2 ^ 63 ≤ n ∧ n < 2 ^ 64 := ⟨by omega, hn.2⟩
  constructor
  · intro h
    simp only [Storable, StorableItems] at h
    exact h.2.2.1
  · intro h
    simp only [Storable, StorableItems]
    exact ⟨e2, a, h, b, ⟨e2, c, hr, d, ht, trivial⟩, trivial⟩

/-- **C152 (same events).** An event is the same after writing and reading exactly if there is no tuple in it. -/
theorem C152_same (e : PyVal) : asRead e = e ↔ TupleFree e := asRead_eq e

/-- **C152 (dumped again).** Events that were loaded, dumped with the same number and time, give the same bytes; so
any number of rounds of dumping and loading after the first changes nothing. -/
theorem C152_again (events : List PyVal) (n : ℤ) (now : String) :
    cacheBytes (events.map asRead) n now = cacheBytes events n now ∧
      (events.map asRead).map asRead = events.map asRead := by
  constructor
  · have h := encVal_asRead (cacheVal events n now)
    rw [cacheBytes, cacheBytes, ← asReadAll_eq_map]
    exact h
  · rw [List.map_map]
    exact List.map_congr_left fun e _ => (asRead_eq _).2 (asRead_tupleFree e)

/-- **C152 (different caches).** Two dumps with the same bytes hold the same number and the same events, up to
tuples and lists. -/
theorem C152_injective {events events' : List PyVal} {n n' : ℤ} {now now' : String} {bs : Bytes}
    (h : cacheBytes events n now = some bs) (h' : cacheBytes events' n' now' = some bs) :
    events.map asRead = events'.map asRead ∧ n = n' := by
  have := (load_eq h).symm.trans (load_eq h')
  exact Prod.mk.inj (Except.ok.inj this)

private theorem fileCodec_eq (v : PyVal) : fileCodec v = if (encVal v).isSome then some (asRead v) else none := by
  unfold fileCodec
  cases h : encVal v with
  | none => rfl
  | some bs => simp [decodeBytes_encVal h]

private theorem encodeList_fileCodec (vs : List PyVal) :
    encodeList fileCodec vs = if (encVals vs).isSome then some (vs.map asRead) else none := by
  induction vs with
  | nil => rfl
  | cons v vs ih =>
    rw [encodeList, ih, fileCodec_eq, encVals]
    cases encVal v <;> cases encVals vs <;> simp

/-- **C152 (files of the cores).** For fewer than `2 ^ 32` events, the event-by-event coding that the model of
`bayesnet` uses is what the bytes of a core's file give: it fails exactly if the file cannot be written, and
otherwise the file reads back as those events; cut off anywhere it is an error. -/
theorem C152_batch (batch : List PyVal) (hl : batch.length < 2 ^ 32) :
    match batchBytes batch with
    | none => encodeList fileCodec batch = none
    | some bs => ∃ got, encodeList fileCodec batch = some got ∧ decodeBytes bs = .ok (.list got) ∧
        ∀ old, ∀ k < bs.length, decodeBytes (writtenFile old bs k) = .error .decodeError := by
  rw [encodeList_fileCodec]
  cases h : batchBytes batch with
  | none =>
    have h1 : ¬ (encVal (.list batch)).isSome := by rw [← batchBytes, h]; simp
    rw [encVal_isSome, Storable, ← encVals_isSome] at h1
    exact if_neg fun hv => h1 ⟨hl, hv⟩
  | some bs =>
    have h1 : (encVal (.list batch)).isSome := by rw [← batchBytes, h]; simp
    rw [encVal_isSome, Storable, ← encVals_isSome] at h1
    refine ⟨batch.map asRead, if_pos h1.2, ?_, fun old k hk => ?_⟩
    · rw [decodeBytes_encVal h, asRead, asReadAll_eq_map]
    · refine decodeBytes_prefix (v := .list batch) (q := bs.drop k) ?_ (by simp; omega)
      rw [writtenFile, List.take_append_drop]; exact h

/-! ## Concrete cases -/

/-- `{"rain": True, "temps": (3, -40)}` -/
private def rainy : PyVal := .dict [("rain", .bool true), ("temps", .tuple [.int 3, .int (-40)])]

example : cacheBytes [rainy] 1 "t" = some
    ([130, 166] ++ textBytes "events" ++ [145, 130, 164] ++ textBytes "rain" ++ [195, 165] ++ textBytes "temps" ++
      [146, 3, 208, 216, 168] ++ textBytes "metadata" ++ [130, 161] ++ textBytes "n" ++ [1, 174] ++
      textBytes "last_generated" ++ [161] ++ textBytes "t") := by decide +kernel

example : asRead rainy = .dict [("rain", .bool true), ("temps", .list [.int 3, .int (-40)])] := rfl

example : Storable rainy := by
  simp only [rainy, Storable, StorableItems, StorableAll]; decide

example : ¬ Storable (.list [.int 3, .other]) := by simp [Storable, StorableAll]

example : encVal (.int 300) = some [205, 1, 44] ∧ encVal (.int (-1)) = some [255] ∧
    encVal (.int (-200)) = some [209, 255, 56] ∧ encVal (.int (2 ^ 64)) = none := by decide +kernel

example : ¬ TupleFree rainy := by simp [rainy, TupleFree, TupleFreeItems]

end Verif
