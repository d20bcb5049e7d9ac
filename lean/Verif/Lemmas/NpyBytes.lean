import Verif.Lemmas.MsgPack
import Verif.Model.NpyBytes

/-!
# Lemmas about the bytes of files of samples
-/

namespace Verif

open Spec

theorem littleEndian_length (w n : ℕ) : (littleEndian w n).length = w := by
  induction w generalizing n with
  | zero => rfl
  | succ w ih => simp [littleEndian, ih]

theorem readLE_littleEndian (w : ℕ) : ∀ {n : ℕ}, n < 256 ^ w → readLE (littleEndian w n) = n := by
  induction w with
  | zero => intro n h; simp at h; simp [littleEndian, readLE, h]
  | succ w ih =>
    intro n h
    rw [littleEndian, readLE, ih (by rw [pow_succ] at h; omega), UInt8.toNat_ofNat']
    omega

theorem readDecimal_concat (bs : Bytes) (b : UInt8) :
    readDecimal (bs ++ [b]) = readDecimal bs * 10 + (b.toNat - 48) := by
  simp [readDecimal, List.foldl_append]

theorem readDecimal_decimal (n : ℕ) : readDecimal (decimal n) = n := by
  induction n using Nat.strong_induction_on with
  | _ n ih =>
    rw [decimal]
    split_ifs with h
    · rw [readDecimal, List.foldl_cons, List.foldl_nil, ofNat_toNat (by omega)]
      omega
    · rw [readDecimal_concat, ih (n / 10) (by omega), ofNat_toNat (by omega)]
      omega

theorem decimal_digits (n : ℕ) : ∀ b ∈ decimal n, isDigitByte b = true := by
  induction n using Nat.strong_induction_on with
  | _ n ih =>
    rw [decimal]
    split_ifs with h
    · intro b hb
      obtain rfl := List.mem_singleton.1 hb
      simp only [isDigitByte, ofNat_toNat (show 48 + n < 256 by omega)]
      simp; omega
    · intro b hb
      rcases List.mem_append.1 hb with hb | hb
      · exact ih (n / 10) (by omega) b hb
      · obtain rfl := List.mem_singleton.1 hb
        simp only [isDigitByte, ofNat_toNat (show 48 + n % 10 < 256 by omega)]
        simp; omega

theorem decimal_ne_nil (n : ℕ) : decimal n ≠ [] := by
  rw [decimal]; split_ifs <;> simp

theorem decimal_length (n k : ℕ) (hk : 1 ≤ k) (h : n < 10 ^ k) : (decimal n).length ≤ k := by
  induction k generalizing n with
  | zero => omega
  | succ k ih =>
    rw [decimal]
    split_ifs with h1
    · simp
    · rcases Nat.eq_zero_or_pos k with rfl | hk'
      · omega
      · have := ih (n / 10) hk' (by rw [pow_succ] at h; omega)
        simpa using this

theorem stripStart_append (p r : Bytes) : stripStart p (p ++ r) = some r := by
  simp [stripStart]

theorem stripStart_take (p r : Bytes) (k : ℕ) :
    stripStart p ((p ++ r).take k) = if k < p.length then none else some (r.take (k - p.length)) := by
  unfold stripStart
  by_cases h : k < p.length
  · rw [if_pos h, if_neg]
    intro e
    have := congrArg List.length e
    simp at this
    omega
  · rw [if_neg h, if_pos]
    · rw [List.take_append, List.take_of_length_le (by omega), List.drop_left]
    · rw [List.take_append, List.take_of_length_le (l := p) (by omega), List.take_left]

theorem takeBytes_take (a r : Bytes) (k : ℕ) :
    takeBytes a.length ((a ++ r).take k) = if k < a.length then none else some (a, r.take (k - a.length)) := by
  unfold takeBytes
  by_cases h : k < a.length
  · rw [if_pos h, if_neg]
    simp; omega
  · rw [if_neg h, List.take_append, List.take_of_length_le (l := a) (by omega), if_pos (by simp),
      List.take_left, List.drop_left]

theorem takeWhile_all {p : UInt8 → Bool} {l r : Bytes} (hl : ∀ b ∈ l, p b = true)
    (hr : ∀ b ∈ r.head?, p b = false) : (l ++ r).takeWhile p = l ∧ (l ++ r).dropWhile p = r := by
  rw [List.takeWhile_append_of_pos hl, List.dropWhile_append_of_pos hl]
  cases r with
  | nil => simp
  | cons b r =>
    have hb := hr b (by simp)
    simp [List.takeWhile_cons, List.dropWhile_cons, hb]

theorem readShape_npyShape (a : NpyArray) (r : Bytes) :
    readShape (npyShape a ++ r) = some (if a.scalar then none else some a.items.count, r) := by
  unfold npyShape
  cases a.scalar with
  | true => rfl
  | false =>
    simp only [Bool.false_eq_true, if_false]
    rw [List.cons_append, List.cons_append, List.append_assoc]
    obtain ⟨b, t, hb⟩ : ∃ b t, decimal a.items.count = b :: t := by
      cases h : decimal a.items.count with
      | nil => exact absurd h (decimal_ne_nil _)
      | cons b t => exact ⟨b, t, rfl⟩
    have hd := decimal_digits a.items.count
    have h1 : stripStart [40, 41] (40 :: (decimal a.items.count ++ ([44, 41] ++ r))) = none := by
      rw [hb]
      have h41 : b ≠ 41 := by
        rintro rfl
        have := hd 41 (by rw [hb]; simp)
        exact absurd this (by decide)
      simp [stripStart, h41]
    have h2 := takeWhile_all (p := isDigitByte) (l := decimal a.items.count) (r := [44, 41] ++ r) hd
      (by intro b hb; simp at hb; subst hb; decide)
    have h3 : stripStart [40] (40 :: (decimal a.items.count ++ ([44, 41] ++ r))) =
        some (decimal a.items.count ++ ([44, 41] ++ r)) := stripStart_append [40] _
    unfold readShape
    rw [h1]
    simp only [h3, h2.1, h2.2, stripStart_append, if_neg (decimal_ne_nil _), readDecimal_decimal]

/-- The kind of the items. -/
def NpyItems.kind : NpyItems → NpyKind
  | .f8 _ => .f8
  | .i8 _ => .i8
  | .b1 _ => .b1

theorem readHeader_npyHeader (a : NpyArray) :
    readHeader (npyHeader a) = some (NpyItems.kind a.items, if a.scalar then none else some a.items.count) := by
  have h3 : ∀ r, takeBytes 3 (npyDescr a.items ++ r) = some (npyDescr a.items, r) := by
    intro r
    have : (npyDescr a.items).length = 3 := by cases a.items <;> rfl
    rw [← this]; exact takeBytes_append _ _
  have hk : kindOf (npyDescr a.items) = some (NpyItems.kind a.items) := by cases a.items <;> rfl
  unfold npyHeader npyDict
  simp only [List.append_assoc]
  unfold readHeader
  simp only [stripStart_append, h3, hk, readShape_npyShape, Option.bind_eq_bind, Option.bind_some]
  rw [if_pos]
  rw [← List.append_assoc]
  refine (takeWhile_all ?_ (by intro b hb; simp at hb; subst hb; decide)).2
  intro b hb
  rcases List.mem_append.1 hb with hb | hb <;> simp [(List.mem_replicate.1 hb).2]

theorem npyWords_append (xs : List UInt64) (r : Bytes) :
    npyWords xs.length ((xs.flatMap fun x => littleEndian 8 x.toNat) ++ r) = xs := by
  induction xs with
  | nil => rfl
  | cons x xs ih =>
    have hl := littleEndian_length 8 x.toNat
    rw [List.length_cons, npyWords, List.flatMap_cons, List.append_assoc]
    have h1 : (littleEndian 8 x.toNat ++ ((xs.flatMap fun x => littleEndian 8 x.toNat) ++ r)).take 8 =
        littleEndian 8 x.toNat := List.take_left' hl
    have h2 : (littleEndian 8 x.toNat ++ ((xs.flatMap fun x => littleEndian 8 x.toNat) ++ r)).drop 8 =
        (xs.flatMap fun x => littleEndian 8 x.toNat) ++ r := List.drop_left' hl
    rw [h1, h2, ih, readLE_littleEndian 8 (by have := x.toNat_lt; omega)]
    simp

theorem flatMap_length (xs : List UInt64) :
    (xs.flatMap fun x => littleEndian 8 x.toNat).length = 8 * xs.length := by
  induction xs with
  | nil => rfl
  | cons x xs ih => rw [List.flatMap_cons, List.length_append, ih, littleEndian_length, List.length_cons]; omega

theorem readItems_npyData (d : NpyItems) (r : Bytes) :
    readItems (NpyItems.kind d) d.count (npyData d ++ r) = .ok d := by
  cases d with
  | f8 xs =>
    simp only [readItems, NpyItems.kind, NpyItems.count, npyData, npyWords_append, List.length_append,
      flatMap_length]
    rw [if_neg (by omega)]
  | i8 xs =>
    simp only [readItems, NpyItems.kind, NpyItems.count, npyData, npyWords_append, List.length_append,
      flatMap_length]
    rw [if_neg (by omega)]
  | b1 xs =>
    have h1 : ((xs.map fun b => if b then (1 : UInt8) else 0) ++ r).take xs.length =
        xs.map fun b => if b then (1 : UInt8) else 0 := by
      have := List.take_left (l₁ := xs.map fun b => if b then (1 : UInt8) else 0) (l₂ := r)
      rwa [List.length_map] at this
    simp only [readItems, NpyItems.kind, NpyItems.count, npyData, List.length_append, List.length_map, h1]
    rw [if_neg (by omega), List.map_map]
    have : ((fun b : UInt8 => b != 0) ∘ fun b : Bool => if b then (1 : UInt8) else 0) = id := by
      funext b; cases b <;> rfl
    rw [this, List.map_id]

theorem readItems_short (d : NpyItems) {bs : Bytes} (h : bs.length < (npyData d).length) :
    readItems (NpyItems.kind d) d.count bs = .error .value := by
  cases d with
  | f8 xs => rw [npyData, flatMap_length] at h; exact if_pos h
  | i8 xs => rw [npyData, flatMap_length] at h; exact if_pos h
  | b1 xs => rw [npyData, List.length_map] at h; exact if_pos h

/-- What `np.load` makes of the data after the header. -/
def afterHeader (a : NpyArray) (r : Bytes) : Except NpyErr NpyArray :=
  match readItems (NpyItems.kind a.items) a.items.count r with
  | .error e => .error e
  | .ok items => .ok ⟨a.scalar, items⟩

/-- `np.load` of the first `k` bytes of what `np.save` wrote. -/
theorem npyLoad_take (p : Bool) {a : NpyArray} (ha : a.Ok) {bs : Bytes} (h : npyBytes a = some bs) (extra : Bytes)
    (k : ℕ) : npyLoad p ((bs ++ extra).take k) =
      if k = 0 then .error .eof
      else if k < 6 then (if p then .error .unpickling else .error .value)
      else if k < 10 + (npyHeader a).length then .error .value
      else afterHeader a ((npyData a.items ++ extra).take (k - (10 + (npyHeader a).length))) := by
  unfold npyBytes at h
  split_ifs at h with hl
  obtain rfl := Option.some.inj h
  by_cases h0 : k = 0
  · subst h0; simp [npyLoad]
  rw [if_neg h0]
  simp only [List.append_assoc]
  unfold npyLoad
  rw [if_neg (by simp [h0, npyMagic]), stripStart_take]
  have hm : npyMagic.length = 6 := rfl
  by_cases h6 : k < 6
  · rw [if_pos (by omega), if_pos h6]
  rw [if_neg (by omega), if_neg h6]
  simp only
  rw [stripStart_take, hm]
  have h2 : ([1, 0] : Bytes).length = 2 := rfl
  by_cases h8 : k < 8
  · rw [if_pos (by omega), if_pos (by omega)]
  rw [if_neg (by omega)]
  simp only
  have e1 := takeBytes_take (littleEndian 2 (npyHeader a).length) (npyHeader a ++ (npyData a.items ++ extra))
    (k - 6 - ([1, 0] : Bytes).length)
  rw [littleEndian_length] at e1
  rw [e1]
  by_cases h10 : k < 10
  · rw [if_pos (by omega), if_pos (by omega)]
  rw [if_neg (by omega)]
  simp only
  rw [readLE_littleEndian 2 (by omega), takeBytes_take]
  by_cases hh : k < 10 + (npyHeader a).length
  · rw [if_pos (by omega), if_pos hh]
  rw [if_neg (by omega), if_neg hh]
  simp only
  rw [readHeader_npyHeader]
  have e2 : k - 6 - ([1, 0] : Bytes).length - 2 - (npyHeader a).length = k - (10 + (npyHeader a).length) := by
    omega
  rw [e2]
  unfold afterHeader
  obtain ⟨sc, items⟩ := a
  cases sc with
  | true =>
    have : items.count = 1 := ha rfl
    simp only [this, if_true]
    rfl
  | false => rfl

theorem npyBytes_length {a : NpyArray} {bs : Bytes} (h : npyBytes a = some bs) :
    bs.length = 10 + (npyHeader a).length + (npyData a.items).length := by
  unfold npyBytes at h
  split_ifs at h
  obtain rfl := Option.some.inj h
  simp [npyMagic, littleEndian_length]; omega

end Verif
