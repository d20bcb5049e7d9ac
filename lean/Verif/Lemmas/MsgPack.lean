import Verif.Model.MsgPack
import Mathlib.Tactic.Ring
import Mathlib.Tactic.SplitIfs

/-!
# Lemmas about the bytes of cache files
-/

namespace Verif

open Spec

theorem bigEndian_length (w n : ℕ) : (bigEndian w n).length = w := by
  induction w with
  | zero => rfl
  | succ w ih => simp [bigEndian, ih]

theorem foldl_bigEndian (w n acc : ℕ) :
    (bigEndian w n).foldl (fun acc b => acc * 256 + b.toNat) acc = acc * 256 ^ w + n % 256 ^ w := by
  induction w generalizing acc with
  | zero => simp [bigEndian, Nat.mod_one]
  | succ w ih =>
    rw [bigEndian, List.foldl_cons, ih, UInt8.toNat_ofNat', pow_succ 256 w, Nat.mod_mul]
    norm_num
    ring

theorem readBE_bigEndian {w n : ℕ} (h : n < 256 ^ w) : readBE (bigEndian w n) = n := by
  rw [readBE, foldl_bigEndian, Nat.mod_eq_of_lt h]; simp

theorem takeBytes_append (a r : Bytes) : takeBytes a.length (a ++ r) = some (a, r) := by
  simp [takeBytes]

theorem takeBE_append {w n : ℕ} (h : n < 256 ^ w) (r : Bytes) :
    takeBE w (bigEndian w n ++ r) = some (n, r) := by
  have := takeBytes_append (bigEndian w n) r
  rw [bigEndian_length] at this
  rw [takeBE, this, Option.map_some, readBE_bigEndian h]

theorem withBE_append {w n : ℕ} (h : n < 256 ^ w) (k) (r : Bytes) :
    withBE w k (bigEndian w n ++ r) = k n r := by
  rw [withBE, takeBE_append h]

theorem fromUTF8_textBytes (s : String) : String.fromUTF8? ⟨(textBytes s).toArray⟩ = some s := by
  have h : (⟨(textBytes s).toArray⟩ : ByteArray) = s.toByteArray := by
    simp [textBytes]
  rw [h, String.fromUTF8?, dif_pos s.isValidUTF8]
  rfl

theorem textBytes_length (s : String) : (textBytes s).length = s.utf8ByteSize := by
  exact Array.length_toList

theorem decText_append (s : String) (r : Bytes) :
    decText (textBytes s).length (textBytes s ++ r) = some (.str s, r) := by
  rw [decText, takeBytes_append]
  simp only [fromUTF8_textBytes]

/-- Reading after the first byte. -/
def ReadsAs (bs : Bytes) (k : (Bytes → Option (PyVal × Bytes)) → Bytes → Option (PyVal × Bytes)) : Prop :=
  ∃ b t, bs = b :: t ∧ ∀ d r, decFrom d b.toNat (t ++ r) = k d r

theorem ofNat_toNat {n : ℕ} (h : n < 256) : (UInt8.ofNat n).toNat = n := by
  rw [UInt8.toNat_ofNat']; exact Nat.mod_eq_of_lt h

theorem decFrom_203 (d : Bytes → Option (PyVal × Bytes)) (r : Bytes) :
    decFrom d (UInt8.toNat 203) r = withBE 8 (fun n r => some (.flt (UInt64.ofNat n), r)) r := by
  rw [show UInt8.toNat 203 = 203 from rfl, decFrom]
  repeat rw [if_neg (by omega)]
  rw [if_pos rfl]

theorem decFrom_204 (d : Bytes → Option (PyVal × Bytes)) (r : Bytes) :
    decFrom d (UInt8.toNat 204) r = withBE 1 (fun n r => some (.int n, r)) r := by
  rw [show UInt8.toNat 204 = 204 from rfl, decFrom]
  repeat rw [if_neg (by omega)]
  rw [if_pos rfl]

theorem decFrom_205 (d : Bytes → Option (PyVal × Bytes)) (r : Bytes) :
    decFrom d (UInt8.toNat 205) r = withBE 2 (fun n r => some (.int n, r)) r := by
  rw [show UInt8.toNat 205 = 205 from rfl, decFrom]
  repeat rw [if_neg (by omega)]
  rw [if_pos rfl]

theorem decFrom_206 (d : Bytes → Option (PyVal × Bytes)) (r : Bytes) :
    decFrom d (UInt8.toNat 206) r = withBE 4 (fun n r => some (.int n, r)) r := by
  rw [show UInt8.toNat 206 = 206 from rfl, decFrom]
  repeat rw [if_neg (by omega)]
  rw [if_pos rfl]

theorem decFrom_207 (d : Bytes → Option (PyVal × Bytes)) (r : Bytes) :
    decFrom d (UInt8.toNat 207) r = withBE 8 (fun n r => some (.int n, r)) r := by
  rw [show UInt8.toNat 207 = 207 from rfl, decFrom]
  repeat rw [if_neg (by omega)]
  rw [if_pos rfl]

theorem decFrom_208 (d : Bytes → Option (PyVal × Bytes)) (r : Bytes) :
    decFrom d (UInt8.toNat 208) r = withBE 1 (fun n r => some (.int ((n : ℤ) - if n < 2 ^ 7 then 0 else 2 ^ 8), r)) r := by
  rw [show UInt8.toNat 208 = 208 from rfl, decFrom]
  repeat rw [if_neg (by omega)]
  rw [if_pos rfl]

theorem decFrom_209 (d : Bytes → Option (PyVal × Bytes)) (r : Bytes) :
    decFrom d (UInt8.toNat 209) r = withBE 2 (fun n r => some (.int ((n : ℤ) - if n < 2 ^ 15 then 0 else 2 ^ 16), r)) r := by
  rw [show UInt8.toNat 209 = 209 from rfl, decFrom]
  repeat rw [if_neg (by omega)]
  rw [if_pos rfl]

theorem decFrom_210 (d : Bytes → Option (PyVal × Bytes)) (r : Bytes) :
    decFrom d (UInt8.toNat 210) r = withBE 4 (fun n r => some (.int ((n : ℤ) - if n < 2 ^ 31 then 0 else 2 ^ 32), r)) r := by
  rw [show UInt8.toNat 210 = 210 from rfl, decFrom]
  repeat rw [if_neg (by omega)]
  rw [if_pos rfl]

theorem decFrom_211 (d : Bytes → Option (PyVal × Bytes)) (r : Bytes) :
    decFrom d (UInt8.toNat 211) r = withBE 8 (fun n r => some (.int ((n : ℤ) - if n < 2 ^ 63 then 0 else 2 ^ 64), r)) r := by
  rw [show UInt8.toNat 211 = 211 from rfl, decFrom]
  repeat rw [if_neg (by omega)]
  rw [if_pos rfl]

theorem decFrom_217 (d : Bytes → Option (PyVal × Bytes)) (r : Bytes) :
    decFrom d (UInt8.toNat 217) r = withBE 1 decText r := by
  rw [show UInt8.toNat 217 = 217 from rfl, decFrom]
  repeat rw [if_neg (by omega)]
  rw [if_pos rfl]

theorem decFrom_218 (d : Bytes → Option (PyVal × Bytes)) (r : Bytes) :
    decFrom d (UInt8.toNat 218) r = withBE 2 decText r := by
  rw [show UInt8.toNat 218 = 218 from rfl, decFrom]
  repeat rw [if_neg (by omega)]
  rw [if_pos rfl]

theorem decFrom_219 (d : Bytes → Option (PyVal × Bytes)) (r : Bytes) :
    decFrom d (UInt8.toNat 219) r = withBE 4 decText r := by
  rw [show UInt8.toNat 219 = 219 from rfl, decFrom]
  repeat rw [if_neg (by omega)]
  rw [if_pos rfl]

theorem decFrom_220 (d : Bytes → Option (PyVal × Bytes)) (r : Bytes) :
    decFrom d (UInt8.toNat 220) r = withBE 2 (decList d) r := by
  rw [show UInt8.toNat 220 = 220 from rfl, decFrom]
  repeat rw [if_neg (by omega)]
  rw [if_pos rfl]

theorem decFrom_221 (d : Bytes → Option (PyVal × Bytes)) (r : Bytes) :
    decFrom d (UInt8.toNat 221) r = withBE 4 (decList d) r := by
  rw [show UInt8.toNat 221 = 221 from rfl, decFrom]
  repeat rw [if_neg (by omega)]
  rw [if_pos rfl]

theorem decFrom_222 (d : Bytes → Option (PyVal × Bytes)) (r : Bytes) :
    decFrom d (UInt8.toNat 222) r = withBE 2 (decDict d) r := by
  rw [show UInt8.toNat 222 = 222 from rfl, decFrom]
  repeat rw [if_neg (by omega)]
  rw [if_pos rfl]

theorem decFrom_223 (d : Bytes → Option (PyVal × Bytes)) (r : Bytes) :
    decFrom d (UInt8.toNat 223) r = withBE 4 (decDict d) r := by
  rw [show UInt8.toNat 223 = 223 from rfl, decFrom]
  repeat rw [if_neg (by omega)]
  rw [if_pos rfl]

theorem encArrayHead_reads {n : ℕ} {h : Bytes} (e : encArrayHead n = some h) :
    ReadsAs h fun d r => decList d n r := by
  unfold encArrayHead at e
  split_ifs at e with h1 h2 h3 <;> obtain rfl := Option.some.inj e
  · refine ⟨_, _, rfl, fun d r => ?_⟩
    rw [ofNat_toNat (by omega)]
    simp only [decFrom]
    rw [if_neg (by omega), if_neg (by omega), if_pos (by omega)]
    simp
  · exact ⟨_, _, rfl, fun d r => (decFrom_220 _ _).trans (withBE_append (by omega) _ _)⟩
  · exact ⟨_, _, rfl, fun d r => (decFrom_221 _ _).trans (withBE_append (by omega) _ _)⟩

theorem encMapHead_reads {n : ℕ} {h : Bytes} (e : encMapHead n = some h) :
    ReadsAs h fun d r => decDict d n r := by
  unfold encMapHead at e
  split_ifs at e with h1 h2 h3 <;> obtain rfl := Option.some.inj e
  · refine ⟨_, _, rfl, fun d r => ?_⟩
    rw [ofNat_toNat (by omega)]
    simp only [decFrom]
    rw [if_neg (by omega), if_pos (by omega)]
    simp
  · exact ⟨_, _, rfl, fun d r => (decFrom_222 _ _).trans (withBE_append (by omega) _ _)⟩
  · exact ⟨_, _, rfl, fun d r => (decFrom_223 _ _).trans (withBE_append (by omega) _ _)⟩

theorem encStr_reads {s : String} {bs : Bytes} (e : encStr s = some bs) :
    ReadsAs bs fun _ r => some (.str s, r) := by
  simp only [encStr] at e
  split_ifs at e with h1 h2 h3 h4 <;> obtain rfl := Option.some.inj e
  · refine ⟨_, _, rfl, fun d r => ?_⟩
    rw [ofNat_toNat (by omega)]
    simp only [decFrom]
    rw [if_neg (by omega), if_neg (by omega), if_neg (by omega), if_pos (by omega),
      Nat.add_sub_cancel_left, decText_append]
  · refine ⟨217, bigEndian 1 _ ++ textBytes s, rfl, fun d r => ?_⟩
    rw [List.append_assoc, decFrom_217]
    exact (withBE_append (by omega) decText _).trans (decText_append s r)
  · refine ⟨218, bigEndian 2 _ ++ textBytes s, rfl, fun d r => ?_⟩
    rw [List.append_assoc, decFrom_218]
    exact (withBE_append (by omega) decText _).trans (decText_append s r)
  · refine ⟨219, bigEndian 4 _ ++ textBytes s, rfl, fun d r => ?_⟩
    rw [List.append_assoc, decFrom_219]
    exact (withBE_append (by omega) decText _).trans (decText_append s r)

theorem encInt_reads {z : ℤ} {bs : Bytes} (e : encInt z = some bs) :
    ReadsAs bs fun _ r => some (.int z, r) := by
  simp only [encInt] at e
  split_ifs at e with h0 h1 h2 h3 h4 h5 g1 g2 g3 g4 g5 <;> obtain rfl := Option.some.inj e
  · refine ⟨_, _, rfl, fun d r => ?_⟩
    rw [ofNat_toNat (by omega)]
    simp only [decFrom]
    rw [if_pos (by omega), Int.toNat_of_nonneg h0]
    simp
  · refine ⟨_, _, rfl, fun d r => (decFrom_204 _ _).trans ((withBE_append (by omega) _ _).trans ?_)⟩
    simp only [Int.toNat_of_nonneg h0]
  · refine ⟨_, _, rfl, fun d r => (decFrom_205 _ _).trans ((withBE_append (by omega) _ _).trans ?_)⟩
    simp only [Int.toNat_of_nonneg h0]
  · refine ⟨_, _, rfl, fun d r => (decFrom_206 _ _).trans ((withBE_append (by omega) _ _).trans ?_)⟩
    simp only [Int.toNat_of_nonneg h0]
  · refine ⟨_, _, rfl, fun d r => (decFrom_207 _ _).trans ((withBE_append (by omega) _ _).trans ?_)⟩
    simp only [Int.toNat_of_nonneg h0]
  · refine ⟨_, _, rfl, fun d r => ?_⟩
    rw [ofNat_toNat (by omega)]
    simp only [decFrom]
    repeat rw [if_neg (by omega)]
    rw [Int.toNat_of_nonneg (by omega)]
    simp
  · refine ⟨_, _, rfl, fun d r => (decFrom_208 _ _).trans ((withBE_append (by omega) _ _).trans ?_)⟩
    simp only
    rw [if_neg (by omega), Int.toNat_of_nonneg (by omega)]
    simp
  · refine ⟨_, _, rfl, fun d r => (decFrom_209 _ _).trans ((withBE_append (by omega) _ _).trans ?_)⟩
    simp only
    rw [if_neg (by omega), Int.toNat_of_nonneg (by omega)]
    simp
  · refine ⟨_, _, rfl, fun d r => (decFrom_210 _ _).trans ((withBE_append (by omega) _ _).trans ?_)⟩
    simp only
    rw [if_neg (by omega), Int.toNat_of_nonneg (by omega)]
    simp
  · refine ⟨_, _, rfl, fun d r => (decFrom_211 _ _).trans ((withBE_append (by omega) _ _).trans ?_)⟩
    simp only
    rw [if_neg (by omega), Int.toNat_of_nonneg (by omega)]
    simp

theorem decVal_reads {bs : Bytes} {k} (h : ReadsAs bs k) {f : ℕ} (hf : bs.length ≤ f) (rest : Bytes) :
    ∃ f', f = f' + 1 ∧ decVal f (bs ++ rest) = k (decVal f') rest := by
  obtain ⟨b, t, rfl, h⟩ := h
  obtain ⟨f', rfl⟩ : ∃ f', f = f' + 1 := ⟨f - 1, by simp at hf; omega⟩
  exact ⟨f', rfl, h _ _⟩

theorem ReadsAs.length_pos {bs : Bytes} {k} (h : ReadsAs bs k) : 0 < bs.length := by
  obtain ⟨b, t, rfl, -⟩ := h; simp

theorem decVal_simple {bs : Bytes} {v : PyVal} (h : ReadsAs bs fun _ r => some (v, r)) {f : ℕ}
    (hf : bs.length ≤ f) (rest : Bytes) : decVal f (bs ++ rest) = some (v, rest) := by
  obtain ⟨f', -, h⟩ := decVal_reads h hf rest
  exact h

mutual

theorem decVal_encVal : ∀ (v : PyVal) {bs : Bytes}, encVal v = some bs → ∀ {f : ℕ}, bs.length ≤ f →
    ∀ rest, decVal f (bs ++ rest) = some (asRead v, rest)
  | .none, bs, e, f, hf, rest => by
    rw [encVal] at e
    obtain rfl := Option.some.inj e
    exact decVal_simple ⟨_, _, rfl, fun d r => rfl⟩ hf rest
  | .bool false, bs, e, f, hf, rest => by
    rw [encVal] at e
    obtain rfl := Option.some.inj e
    exact decVal_simple ⟨_, _, rfl, fun d r => rfl⟩ hf rest
  | .bool true, bs, e, f, hf, rest => by
    rw [encVal] at e
    obtain rfl := Option.some.inj e
    exact decVal_simple ⟨_, _, rfl, fun d r => rfl⟩ hf rest
  | .int z, bs, e, f, hf, rest => by
    rw [encVal] at e
    exact decVal_simple (encInt_reads e) hf rest
  | .flt b, bs, e, f, hf, rest => by
    rw [encVal] at e
    obtain rfl := Option.some.inj e
    refine decVal_simple ⟨_, _, rfl, fun d r => ?_⟩ hf rest
    refine (decFrom_203 _ _).trans ((withBE_append (n := b.toNat) (w := 8) ?_ _ _).trans ?_)
    · have := b.toNat_lt; omega
    · simp [asRead]
  | .str s, bs, e, f, hf, rest => by
    rw [encVal] at e
    exact decVal_simple (encStr_reads e) hf rest
  | .list vs, bs, e, f, hf, rest => by
    rw [encVal] at e
    cases h1 : encArrayHead vs.length with
    | none => simp [h1] at e
    | some h =>
      cases h2 : encVals vs with
      | none => simp [h1, h2] at e
      | some b =>
        simp only [h1, h2] at e
        obtain rfl := Option.some.inj e
        have hr := encArrayHead_reads h1
        have hp := hr.length_pos
        rw [List.length_append] at hf
        obtain ⟨f', rfl, h⟩ := decVal_reads hr (f := f) (by omega) (b ++ rest)
        rw [List.append_assoc, h, decList, decVals_encVals vs h2 (by omega)]
        rfl
  | .tuple vs, bs, e, f, hf, rest => by
    rw [encVal] at e
    cases h1 : encArrayHead vs.length with
    | none => simp [h1] at e
    | some h =>
      cases h2 : encVals vs with
      | none => simp [h1, h2] at e
      | some b =>
        simp only [h1, h2] at e
        obtain rfl := Option.some.inj e
        have hr := encArrayHead_reads h1
        have hp := hr.length_pos
        rw [List.length_append] at hf
        obtain ⟨f', rfl, h⟩ := decVal_reads hr (f := f) (by omega) (b ++ rest)
        rw [List.append_assoc, h, decList, decVals_encVals vs h2 (by omega)]
        rfl
  | .dict kvs, bs, e, f, hf, rest => by
    rw [encVal] at e
    cases h1 : encMapHead kvs.length with
    | none => simp [h1] at e
    | some h =>
      cases h2 : encItems kvs with
      | none => simp [h1, h2] at e
      | some b =>
        simp only [h1, h2] at e
        obtain rfl := Option.some.inj e
        have hr := encMapHead_reads h1
        have hp := hr.length_pos
        rw [List.length_append] at hf
        obtain ⟨f', rfl, h⟩ := decVal_reads hr (f := f) (by omega) (b ++ rest)
        rw [List.append_assoc, h, decDict, decItems_encItems kvs h2 (by omega)]
        rfl
  | .other, bs, e, f, hf, rest => by
    rw [encVal] at e; exact absurd e (by simp)

theorem decVals_encVals : ∀ (vs : List PyVal) {bs : Bytes}, encVals vs = some bs → ∀ {f : ℕ}, bs.length ≤ f →
    ∀ rest, decMany (decVal f) vs.length (bs ++ rest) = some (asReadAll vs, rest)
  | [], bs, e, f, hf, rest => by
    rw [encVals] at e
    obtain rfl := Option.some.inj e
    rfl
  | v :: vs, bs, e, f, hf, rest => by
    rw [encVals] at e
    cases h1 : encVal v with
    | none => simp [h1] at e
    | some a =>
      cases h2 : encVals vs with
      | none => simp [h1, h2] at e
      | some b =>
        simp only [h1, h2] at e
        obtain rfl := Option.some.inj e
        rw [List.length_append] at hf
        rw [List.length_cons, decMany, List.append_assoc, decVal_encVal v h1 (by omega)]
        simp only [decVals_encVals vs h2 (show b.length ≤ f by omega)]
        rfl

theorem decItems_encItems : ∀ (kvs : List (String × PyVal)) {bs : Bytes}, encItems kvs = some bs →
    ∀ {f : ℕ}, bs.length ≤ f →
    ∀ rest, decMany (decItem (decVal f)) kvs.length (bs ++ rest) = some (asReadItems kvs, rest)
  | [], bs, e, f, hf, rest => by
    rw [encItems] at e
    obtain rfl := Option.some.inj e
    rfl
  | (k, v) :: kvs, bs, e, f, hf, rest => by
    rw [encItems] at e
    cases h0 : encStr k with
    | none => simp [h0] at e
    | some c =>
      cases h1 : encVal v with
      | none => simp [h0, h1] at e
      | some a =>
        cases h2 : encItems kvs with
        | none => simp [h0, h1, h2] at e
        | some b =>
          simp only [h0, h1, h2] at e
          obtain rfl := Option.some.inj e
          rw [List.length_append, List.length_append] at hf
          rw [List.length_cons, decMany, List.append_assoc, List.append_assoc, decItem,
            decVal_simple (encStr_reads h0) (by omega)]
          simp only [decVal_encVal v h1 (show a.length ≤ f by omega),
            decItems_encItems kvs h2 (show b.length ≤ f by omega)]
          rfl

end

/-! ## More bytes, more nesting -/

/-- Reads whatever the other one reads. -/
def Reads {α : Type} (d d' : Bytes → Option (α × Bytes)) : Prop :=
  ∀ p q v r, d p = some (v, r) → d' (p ++ q) = some (v, r ++ q)

theorem takeBytes_ext {n : ℕ} {p a r : Bytes} (q : Bytes) (h : takeBytes n p = some (a, r)) :
    takeBytes n (p ++ q) = some (a, r ++ q) := by
  unfold takeBytes at h ⊢
  split_ifs at h with hn
  obtain ⟨rfl, rfl⟩ := Prod.mk.inj (Option.some.inj h)
  rw [if_pos (by rw [List.length_append]; omega), List.take_append_of_le_length hn,
    List.drop_append_of_le_length hn]

theorem takeBE_ext {w n : ℕ} {p r : Bytes} (q : Bytes) (h : takeBE w p = some (n, r)) :
    takeBE w (p ++ q) = some (n, r ++ q) := by
  unfold takeBE at h ⊢
  cases e : takeBytes w p with
  | none => simp [e] at h
  | some x =>
    obtain ⟨a, r'⟩ := x
    rw [e] at h
    obtain ⟨rfl, rfl⟩ := Prod.mk.inj (Option.some.inj h)
    rw [takeBytes_ext q e]; rfl

theorem withBE_reads {w : ℕ} {k k' : ℕ → Bytes → Option (PyVal × Bytes)} (hk : ∀ n, Reads (k n) (k' n)) :
    Reads (withBE w k) (withBE w k') := by
  intro p q v r h
  unfold withBE at h ⊢
  cases e : takeBE w p with
  | none => simp [e] at h
  | some x =>
    obtain ⟨n, r'⟩ := x
    simp only [e] at h
    simp only [takeBE_ext q e]
    exact hk n _ _ _ _ h

theorem decText_reads (n : ℕ) : Reads (decText n) (decText n) := by
  intro p q v r h
  unfold decText at h ⊢
  cases e : takeBytes n p with
  | none => simp [e] at h
  | some x =>
    obtain ⟨a, r'⟩ := x
    simp only [e] at h
    simp only [takeBytes_ext q e]
    cases e2 : String.fromUTF8? ⟨a.toArray⟩ with
    | none => simp [e2] at h
    | some s =>
      simp only [e2] at h
      obtain ⟨rfl, rfl⟩ := Prod.mk.inj (Option.some.inj h)
      rfl

theorem decMany_reads {α : Type} {d d' : Bytes → Option (α × Bytes)} (hd : Reads d d') (n : ℕ) :
    Reads (decMany d n) (decMany d' n) := by
  induction n with
  | zero =>
    intro p q v r h
    obtain ⟨rfl, rfl⟩ := Prod.mk.inj (Option.some.inj h)
    rfl
  | succ n ih =>
    intro p q v r h
    rw [decMany] at h ⊢
    cases e : d p with
    | none => simp [e] at h
    | some x =>
      obtain ⟨a, r1⟩ := x
      simp only [e] at h
      simp only [hd _ q _ _ e]
      cases e2 : decMany d n r1 with
      | none => simp [e2] at h
      | some y =>
        obtain ⟨b, r2⟩ := y
        simp only [e2] at h
        simp only [ih _ q _ _ e2]
        obtain ⟨rfl, rfl⟩ := Prod.mk.inj (Option.some.inj h)
        rfl

theorem decItem_reads {d d' : Bytes → Option (PyVal × Bytes)} (hd : Reads d d') :
    Reads (decItem d) (decItem d') := by
  intro p q v r h
  unfold decItem at h ⊢
  cases e : d p with
  | none => simp [e] at h
  | some x =>
    obtain ⟨a, r1⟩ := x
    rw [hd _ q _ _ e]
    cases a with
    | str k =>
      simp only [e] at h
      simp only
      cases e2 : d r1 with
      | none => simp [e2] at h
      | some y =>
        obtain ⟨b, r2⟩ := y
        simp only [e2] at h
        simp only [hd _ q _ _ e2]
        obtain ⟨rfl, rfl⟩ := Prod.mk.inj (Option.some.inj h)
        rfl
    | _ => simp [e] at h

theorem map_reads {α β : Type} {d d' : Bytes → Option (α × Bytes)} (g : α → β) (hd : Reads d d') :
    Reads (fun p => (d p).map fun x => (g x.1, x.2)) (fun p => (d' p).map fun x => (g x.1, x.2)) := by
  intro p q v r h
  cases e : d p with
  | none => simp [e] at h
  | some x =>
    obtain ⟨a, r1⟩ := x
    simp only [e] at h
    obtain ⟨rfl, rfl⟩ := Prod.mk.inj (Option.some.inj h)
    simp only [hd _ q _ _ e]
    rfl

theorem const_reads (v : PyVal) : Reads (fun r => some (v, r)) (fun r => some (v, r)) := by
  intro p q v' r h
  obtain ⟨rfl, rfl⟩ := Prod.mk.inj (Option.some.inj h)
  rfl

theorem none_reads : Reads (fun _ => (none : Option (PyVal × Bytes))) (fun _ => none) := by
  intro p q v r h; simp at h

theorem ite_reads {c : Prop} [Decidable c] {a a' e e' : Bytes → Option (PyVal × Bytes)} (ha : Reads a a')
    (he : Reads e e') : Reads (fun p => if c then a p else e p) (fun p => if c then a' p else e' p) := by
  intro p q v r h
  by_cases hc : c
  · simp only [if_pos hc] at h ⊢; exact ha _ _ _ _ h
  · simp only [if_neg hc] at h ⊢; exact he _ _ _ _ h

theorem decFrom_reads {d d' : Bytes → Option (PyVal × Bytes)} (hd : Reads d d') (b : ℕ) :
    Reads (decFrom d b) (decFrom d' b) := by
  intro p q v r h
  have hL : ∀ n, Reads (decList d n) (decList d' n) := fun n => map_reads PyVal.list (decMany_reads hd n)
  have hD : ∀ n, Reads (decDict d n) (decDict d' n) := fun n =>
    map_reads PyVal.dict (decMany_reads (decItem_reads hd) n)
  refine (?_ : Reads (decFrom d b) (decFrom d' b)) p q v r h
  refine ite_reads (const_reads _) <|
    ite_reads (hD _) <|
    ite_reads (hL _) <|
    ite_reads (decText_reads _) <|
    ite_reads (const_reads _) <|
    ite_reads (const_reads _) <|
    ite_reads (const_reads _) <|
    ite_reads (withBE_reads fun _ => const_reads _) <|
    ite_reads (withBE_reads fun _ => const_reads _) <|
    ite_reads (withBE_reads fun _ => const_reads _) <|
    ite_reads (withBE_reads fun _ => const_reads _) <|
    ite_reads (withBE_reads fun _ => const_reads _) <|
    ite_reads (withBE_reads fun _ => const_reads _) <|
    ite_reads (withBE_reads fun _ => const_reads _) <|
    ite_reads (withBE_reads fun _ => const_reads _) <|
    ite_reads (withBE_reads fun _ => const_reads _) <|
    ite_reads (withBE_reads decText_reads) <|
    ite_reads (withBE_reads decText_reads) <|
    ite_reads (withBE_reads decText_reads) <|
    ite_reads (withBE_reads hL) <|
    ite_reads (withBE_reads hL) <|
    ite_reads (withBE_reads hD) <|
    ite_reads (withBE_reads hD) <|
    ite_reads none_reads (const_reads _)

theorem decVal_more {f g : ℕ} (hfg : f ≤ g) : Reads (decVal f) (decVal g) := by
  induction f generalizing g with
  | zero => intro p q v r h; simp [decVal] at h
  | succ f ih =>
    obtain ⟨g', rfl⟩ : ∃ g', g = g' + 1 := ⟨g - 1, by omega⟩
    intro p q v r h
    cases p with
    | nil => simp [decVal] at h
    | cons b p =>
      rw [decVal] at h
      rw [List.cons_append, decVal]
      exact decFrom_reads (ih (by omega)) _ _ _ _ _ h

/-! ## What can be encoded -/

theorem encInt_isSome (z : ℤ) : (encInt z).isSome ↔ -2 ^ 63 ≤ z ∧ z < 2 ^ 64 := by
  simp only [encInt]
  split_ifs <;> simp <;> omega

theorem encStr_isSome (s : String) : (encStr s).isSome ↔ ShortEnough s.utf8ByteSize := by
  simp only [encStr, ShortEnough, textBytes_length]
  split_ifs <;> simp <;> omega

theorem encArrayHead_isSome (n : ℕ) : (encArrayHead n).isSome ↔ ShortEnough n := by
  simp only [encArrayHead, ShortEnough]
  split_ifs <;> simp <;> omega

theorem encMapHead_isSome (n : ℕ) : (encMapHead n).isSome ↔ ShortEnough n := by
  simp only [encMapHead, ShortEnough]
  split_ifs <;> simp <;> omega

mutual

theorem encVal_isSome : ∀ v : PyVal, (encVal v).isSome ↔ Storable v
  | .none => by simp [encVal, Storable]
  | .bool false => by simp [encVal, Storable]
  | .bool true => by simp [encVal, Storable]
  | .int z => by rw [encVal, Storable]; exact encInt_isSome z
  | .flt b => by simp [encVal, Storable]
  | .str s => by rw [encVal, Storable]; exact encStr_isSome s
  | .list vs => by
    rw [encVal, Storable, ← encArrayHead_isSome, ← encVals_isSome vs]
    cases encArrayHead vs.length <;> cases encVals vs <;> simp
  | .tuple vs => by
    rw [encVal, Storable, ← encArrayHead_isSome, ← encVals_isSome vs]
    cases encArrayHead vs.length <;> cases encVals vs <;> simp
  | .dict kvs => by
    rw [encVal, Storable, ← encMapHead_isSome, ← encItems_isSome kvs]
    cases encMapHead kvs.length <;> cases encItems kvs <;> simp
  | .other => by simp [encVal, Storable]

theorem encVals_isSome : ∀ vs : List PyVal, (encVals vs).isSome ↔ StorableAll vs
  | [] => by simp [encVals, StorableAll]
  | v :: vs => by
    rw [encVals, StorableAll, ← encVal_isSome v, ← encVals_isSome vs]
    cases encVal v <;> cases encVals vs <;> simp

theorem encItems_isSome : ∀ kvs : List (String × PyVal), (encItems kvs).isSome ↔ StorableItems kvs
  | [] => by simp [encItems, StorableItems]
  | (k, v) :: rest => by
    rw [encItems, StorableItems, ← encStr_isSome, ← encVal_isSome v, ← encItems_isSome rest]
    cases encStr k <;> cases encVal v <;> cases encItems rest <;> simp

end

mutual

theorem asRead_eq : ∀ v : PyVal, asRead v = v ↔ TupleFree v
  | .none => by simp [asRead, TupleFree]
  | .bool _ => by simp [asRead, TupleFree]
  | .int _ => by simp [asRead, TupleFree]
  | .flt _ => by simp [asRead, TupleFree]
  | .str _ => by simp [asRead, TupleFree]
  | .list vs => by rw [asRead, TupleFree, PyVal.list.injEq]; exact asReadAll_eq vs
  | .tuple vs => by simp [asRead, TupleFree]
  | .dict kvs => by rw [asRead, TupleFree, PyVal.dict.injEq]; exact asReadItems_eq kvs
  | .other => by simp [asRead, TupleFree]

theorem asReadAll_eq : ∀ vs : List PyVal, asReadAll vs = vs ↔ TupleFreeAll vs
  | [] => by simp [asReadAll, TupleFreeAll]
  | v :: vs => by
    rw [asReadAll, TupleFreeAll, List.cons.injEq, asRead_eq v, asReadAll_eq vs]

theorem asReadItems_eq : ∀ kvs : List (String × PyVal), asReadItems kvs = kvs ↔ TupleFreeItems kvs
  | [] => by simp [asReadItems, TupleFreeItems]
  | (k, v) :: rest => by
    rw [asReadItems, TupleFreeItems, List.cons.injEq, Prod.mk.injEq, asRead_eq v, asReadItems_eq rest]
    simp

end

mutual

theorem asRead_tupleFree : ∀ v : PyVal, TupleFree (asRead v)
  | .none => by simp [asRead, TupleFree]
  | .bool _ => by simp [asRead, TupleFree]
  | .int _ => by simp [asRead, TupleFree]
  | .flt _ => by simp [asRead, TupleFree]
  | .str _ => by simp [asRead, TupleFree]
  | .list vs => by rw [asRead, TupleFree]; exact asReadAll_tupleFree vs
  | .tuple vs => by rw [asRead, TupleFree]; exact asReadAll_tupleFree vs
  | .dict kvs => by rw [asRead, TupleFree]; exact asReadItems_tupleFree kvs
  | .other => by simp [asRead, TupleFree]

theorem asReadAll_tupleFree : ∀ vs : List PyVal, TupleFreeAll (asReadAll vs)
  | [] => by simp [asReadAll, TupleFreeAll]
  | v :: vs => by rw [asReadAll, TupleFreeAll]; exact ⟨asRead_tupleFree v, asReadAll_tupleFree vs⟩

theorem asReadItems_tupleFree : ∀ kvs : List (String × PyVal), TupleFreeItems (asReadItems kvs)
  | [] => by simp [asReadItems, TupleFreeItems]
  | (k, v) :: rest => by
    rw [asReadItems, TupleFreeItems]; exact ⟨asRead_tupleFree v, asReadItems_tupleFree rest⟩

end

theorem asReadAll_length (vs : List PyVal) : (asReadAll vs).length = vs.length := by
  induction vs with
  | nil => rfl
  | cons v vs ih => rw [asReadAll, List.length_cons, List.length_cons, ih]

theorem asReadItems_length (vs : List (String × PyVal)) : (asReadItems vs).length = vs.length := by
  induction vs with
  | nil => rfl
  | cons v vs ih => obtain ⟨k, v⟩ := v; rw [asReadItems, List.length_cons, List.length_cons, ih]

mutual

theorem encVal_asRead : ∀ v : PyVal, encVal (asRead v) = encVal v
  | .none => rfl
  | .bool _ => rfl
  | .int _ => rfl
  | .flt _ => rfl
  | .str _ => rfl
  | .list vs => by rw [asRead, encVal, encVal, encVals_asRead vs, asReadAll_length]
  | .tuple vs => by rw [asRead, encVal, encVal, encVals_asRead vs, asReadAll_length]
  | .dict kvs => by rw [asRead, encVal, encVal, encItems_asRead kvs, asReadItems_length]
  | .other => rfl

theorem encVals_asRead : ∀ vs : List PyVal, encVals (asReadAll vs) = encVals vs
  | [] => rfl
  | v :: vs => by rw [asReadAll, encVals, encVals, encVal_asRead v, encVals_asRead vs]

theorem encItems_asRead : ∀ kvs : List (String × PyVal), encItems (asReadItems kvs) = encItems kvs
  | [] => rfl
  | (k, v) :: rest => by rw [asReadItems, encItems, encItems, encVal_asRead v, encItems_asRead rest]

end

/-- A value written in full is read as it should be. -/
theorem decodeBytes_encVal {v : PyVal} {bs : Bytes} (e : encVal v = some bs) :
    decodeBytes bs = .ok (asRead v) := by
  have := decVal_encVal v e (le_refl _) []
  rw [List.append_nil] at this
  rw [decodeBytes, this]

/-- A value followed by something is an error. -/
theorem decodeBytes_trailing {v : PyVal} {bs : Bytes} (e : encVal v = some bs) {q : Bytes} (hq : q ≠ []) :
    decodeBytes (bs ++ q) = .error .decodeError := by
  have := decVal_encVal v e (f := (bs ++ q).length) (by rw [List.length_append]; omega) q
  rw [decodeBytes, this]
  cases q with
  | nil => exact absurd rfl hq
  | cons _ _ => rfl

/-- A value cut off anywhere is an error. -/
theorem decodeBytes_prefix {v : PyVal} {p q : Bytes} (e : encVal v = some (p ++ q)) (hq : q ≠ []) :
    decodeBytes p = .error .decodeError := by
  unfold decodeBytes
  cases h : decVal p.length p with
  | none => rfl
  | some x =>
    obtain ⟨w, r⟩ := x
    cases r with
    | cons _ _ => rfl
    | nil =>
      exfalso
      have h1 := decVal_more (show p.length ≤ (p ++ q).length by rw [List.length_append]; omega) p q _ _ h
      have h2 := decVal_encVal v e (le_refl _) []
      rw [List.append_nil, h1] at h2
      exact hq (by simpa using (Prod.mk.inj (Option.some.inj h2)).2)

theorem asReadAll_eq_map (vs : List PyVal) : asReadAll vs = vs.map asRead := by
  induction vs with
  | nil => rfl
  | cons v vs ih => rw [asReadAll, ih]; rfl

theorem storableAll_iff (vs : List PyVal) : StorableAll vs ↔ ∀ v ∈ vs, Storable v := by
  induction vs with
  | nil => simp [StorableAll]
  | cons v vs ih => simp [StorableAll, ih]

end Verif
