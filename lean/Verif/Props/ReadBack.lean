import Verif.Model.CallText
import Verif.Lemmas.Round
import Verif.Lemmas.PrintingTree

/-!
# C150: reading back what a distribution prints

`str(d)` of a basic distribution looks like `<Distribution> uniform(0, 1)`.  Which of these texts, without
the prefix, are calls that build the same distribution again?
-/

namespace Verif

set_option linter.unusedSimpArgs false

open Spec

variable {σ : Type}

/-- The basic distributions that print as a call building them again: all families but PERT, lognormals,
categorical distributions, coins and exploding dice; constants that are not texts; normal distributions whose
mean and standard deviation have at most two decimals. -/
def PrintsItsCall : Leaf ℝ → Prop
  | .const v => ∀ s, v ≠ .str s
  | .normal m s => TwoDecimals m ∧ TwoDecimals s
  | .die d => d.explodeOn = none
  | .lognormal _ _ | .invlognormal _ _ | .categorical _ | .pert _ _ _ _ | .coin => False
  | _ => True

/-- A distribution returned by one of the constructor functions, with numbers as bounds. -/
inductive Built (ppf : ℝ → ℝ) : Leaf ℝ → Option (Scalar ℝ) → Option (Scalar ℝ) → Prop
  | call {c : DistCall ℝ} {l lc rc} (h : construct (S := St σ ℝ) c = .ok (.leaf l lc rc)) : Built ppf l lc rc
  | norm {x y mean sd cred m s} (lc rc) (h : normalInit ppf x y mean sd cred = .ok ⟨some m, some s⟩) :
      Built ppf (.normal m s) lc rc

/-- The arguments `lclip=…, rclip=…`. -/
def boundArgs (lc rc : Option (Scalar ℝ)) : List Arg :=
  (match lc with
    | some v => [⟨some "lclip", v⟩]
    | none => []) ++
  (match rc with
    | some v => [⟨some "rclip", v⟩]
    | none => [])

theorem literal_number (num : ℝ → String) {v : Scalar ℝ} (h : IsNumber v) : literal num v = v.pstr num := by
  cases v <;> simp [IsNumber, literal, Scalar.pstr] at h ⊢

theorem literal_pstr (num : ℝ → String) {v : Scalar ℝ} (h : ∀ s, v ≠ .str s) : literal num v = v.pstr num := by
  cases v with
  | str s => exact absurd rfl (h s)
  | bool b => cases b <;> simp [literal, Scalar.pstr]
  | _ => simp [literal, Scalar.pstr]

theorem argsText_snoc (num : ℝ → String) (as : List Arg) (h : as ≠ []) (b : Arg) :
    argsText num (as ++ [b]) = argsText num as ++ ", " ++ b.text num := by
  induction as with
  | nil => exact absurd rfl h
  | cons a as ih =>
    cases as with
    | nil => simp [argsText]
    | cons a' as =>
      have := ih (by simp)
      simp only [List.cons_append, argsText] at this ⊢
      rw [this]
      simp [String.append_assoc]

/-- Bounds follow the other arguments. -/
theorem argsText_clip (num : ℝ → String) (as : List Arg) (h : as ≠ []) {lc rc : Option (Scalar ℝ)}
    (hl : ∀ v, lc = some v → IsNumber v) (hr : ∀ v, rc = some v → IsNumber v) :
    argsText num (as ++ boundArgs lc rc) = argsText num as ++ clipStr num lc rc := by
  have hk : ∀ (k : String) (v : Scalar ℝ), IsNumber v →
      Arg.text num ⟨some k, v⟩ = k ++ "=" ++ v.pstr num := by
    intro k v hv
    simp [Arg.text, literal_number num hv]
  cases lc with
  | none =>
    cases rc with
    | none => simp [boundArgs, clipStr]
    | some r =>
      simp only [boundArgs, List.nil_append, clipStr]
      rw [argsText_snoc num as h, hk _ _ (hr r rfl)]
      simp [String.append_assoc]
      rfl
  | some l =>
    cases rc with
    | none =>
      simp only [boundArgs, List.append_nil, clipStr]
      rw [argsText_snoc num as h, hk _ _ (hl l rfl)]
      simp [String.append_assoc]
      rfl
    | some r =>
      simp only [boundArgs, clipStr]
      rw [← List.append_assoc, argsText_snoc num _ (by simp), argsText_snoc num as h, hk _ _ (hl l rfl),
        hk _ _ (hr r rfl)]
      simp [String.append_assoc]
      rfl

theorem round2_two {x : ℝ} (h : TwoDecimals x) : round2 x = x := by
  obtain ⟨k, hk⟩ := h
  rw [round2, mul_comm, hk, roundEven_intCast, ← hk]
  ring

theorem asBound_number {v : Scalar ℝ} (h : IsNumber v) : asBound v = some v := by
  cases v <;> simp [IsNumber, asBound] at h ⊢

theorem asBound_none : asBound (.none : Scalar ℝ) = none := rfl

/-- The basic distributions of the list print as a call of a function of the library which builds the same
distribution. -/
theorem C150_reads_back (F : StrEnv σ ℝ) (ppf : ℝ → ℝ) {l : Leaf ℝ} {lc rc : Option (Scalar ℝ)}
    (hb : Built (σ := σ) ppf l lc rc) (hl : ∀ v, lc = some v → IsNumber v)
    (hr : ∀ v, rc = some v → IsNumber v) (hp : PrintsItsCall l) :
    ∃ c : Call, strObj F false (.leaf l lc rc : Obj (St σ ℝ) ℝ) = "<Distribution> " ++ c.text F.num ∧
      ∃ d, evalCall ppf c = some (.ok d) ∧ SameDist (.leaf l lc rc : Obj (St σ ℝ) ℝ) d := by
  cases hb with
  | @call c l lc rc h =>
    cases c with
    | const v =>
      simp only [construct, Except.ok.injEq, Obj.leaf.injEq] at h
      obtain ⟨rfl, rfl, rfl⟩ := h
      refine ⟨⟨"const", [⟨none, v⟩]⟩, ?_, _, by
        simp [evalCall, signature?, bindArgs, bindKeywords, req, callBody, construct],
        Or.inl rfl⟩
      simp [strObj, Leaf.str?, distPrefix, Call.text, argsText, Arg.text, literal_pstr F.num hp]
    | uniform x y =>
      simp only [construct] at h
      split_ifs at h with h1
      simp only [Except.ok.injEq, Obj.leaf.injEq] at h
      obtain ⟨rfl, rfl, rfl⟩ := h
      refine ⟨⟨"uniform", [⟨none, .flt x⟩, ⟨none, .flt y⟩]⟩, ?_, _, by
        simp [evalCall, signature?, bindArgs, bindKeywords, req, callBody, asNum, construct,
          h1], Or.inl rfl⟩
      simp [strObj, Leaf.str?, distPrefix, Call.text, argsText, Arg.text, literal, String.append_assoc]
    | binomial n p =>
      simp only [construct] at h
      split_ifs at h with h1
      simp only [Except.ok.injEq, Obj.leaf.injEq] at h
      obtain ⟨rfl, rfl, rfl⟩ := h
      refine ⟨⟨"binomial", [⟨some "n", .int n⟩, ⟨some "p", .flt p⟩]⟩, ?_, _, by
        simp [evalCall, signature?, bindArgs, bindKeywords, req, callBody, asNum, construct,
          h1], Or.inl rfl⟩
      simp [strObj, Leaf.str?, distPrefix, Call.text, argsText, Arg.text, literal, String.append_assoc]
      rfl
    | beta a b =>
      simp only [construct] at h
      simp only [Except.ok.injEq, Obj.leaf.injEq] at h
      obtain ⟨rfl, rfl, rfl⟩ := h
      refine ⟨⟨"beta", [⟨some "a", .flt a⟩, ⟨some "b", .flt b⟩]⟩, ?_, _, by
        simp [evalCall, signature?, bindArgs, bindKeywords, req, callBody, asNum, construct],
        Or.inl rfl⟩
      simp [strObj, Leaf.str?, distPrefix, Call.text, argsText, Arg.text, literal, String.append_assoc]
      rfl
    | bernoulli p =>
      cases p with
      | none => simp [construct] at h
      | some p =>
        simp only [construct] at h
        split_ifs at h with h1
        simp only [Except.ok.injEq, Obj.leaf.injEq] at h
        obtain ⟨rfl, rfl, rfl⟩ := h
        refine ⟨⟨"bernoulli", [⟨some "p", .flt p⟩]⟩, ?_, _, by
          simp [evalCall, signature?, bindArgs, bindKeywords, req, callBody, asNum, construct,
          h1], Or.inl rfl⟩
        simp [strObj, Leaf.str?, distPrefix, Call.text, argsText, Arg.text, literal, String.append_assoc]
        rfl
    | discrete items =>
      cases items <;> simp only [construct] at h <;> (try split_ifs at h) <;> cases h <;> exact hp.elim
    | tdist x y t cred lc' rc' =>
      cases x with
      | none =>
        cases y with
        | some y => simp [construct, tBounds, bind, Except.bind] at h
        | none =>
          simp only [construct, tBounds, bind, Except.bind, Except.ok.injEq, Obj.leaf.injEq] at h
          obtain ⟨rfl, rfl, rfl⟩ := h
          refine ⟨⟨"tdist", [⟨some "t", .flt t⟩] ++ boundArgs lc' rc'⟩, ?_,
            .leaf (.tdist none none t 90) lc' rc', ?_, Or.inr (Or.inl ⟨t, cred, 90, lc', rc', rfl, rfl⟩)⟩
          · rw [Call.text, argsText_clip F.num _ (by simp) hl hr]
            simp [strObj, Leaf.str?, tStr, distPrefix, argsText, Arg.text, literal, String.append_assoc]
          · cases lc' <;> cases rc' <;> simp [evalCall, signature?, bindArgs, bindKeywords, optNone, optInt,
              boundArgs, clipSig, callBody, asNum, asOpt, construct, tBounds, bind, Except.bind, asBound_number,
              asBound_none, hl, hr]
      | some x =>
        cases y with
        | none => simp [construct, tBounds, bind, Except.bind] at h
        | some y =>
          simp only [construct, tBounds, bind, Except.bind] at h
          split_ifs at h with h1
          simp only [Except.ok.injEq, Obj.leaf.injEq] at h
          obtain ⟨rfl, rfl, rfl⟩ := h
          by_cases hc : cred = 90
          · subst hc
            refine ⟨⟨"tdist", [⟨some "x", .flt x⟩, ⟨some "y", .flt y⟩, ⟨some "t", .flt t⟩] ++ boundArgs lc' rc'⟩, ?_,
              .leaf _ lc' rc', ?_, Or.inl rfl⟩
            · rw [Call.text, argsText_clip F.num _ (by simp) hl hr]
              simp [strObj, Leaf.str?, tStr, distPrefix, argsText, Arg.text, literal, String.append_assoc]
              rfl
            · cases lc' <;> cases rc' <;> simp [evalCall, signature?, bindArgs, bindKeywords, optNone, optInt,
                boundArgs, clipSig, callBody, asNum, asOpt, construct, tBounds, bind, Except.bind, asBound_number,
                asBound_none, hl, hr, h1]
          · refine ⟨⟨"tdist", [⟨some "x", .flt x⟩, ⟨some "y", .flt y⟩, ⟨some "t", .flt t⟩,
              ⟨some "credibility", .flt cred⟩] ++ boundArgs lc' rc'⟩, ?_, .leaf _ lc' rc', ?_, Or.inl rfl⟩
            · rw [Call.text, argsText_clip F.num _ (by simp) hl hr]
              simp [strObj, Leaf.str?, tStr, hc, distPrefix, argsText, Arg.text, literal, String.append_assoc]
              rfl
            · cases lc' <;> cases rc' <;> simp [evalCall, signature?, bindArgs, bindKeywords, optNone, optInt,
                boundArgs, clipSig, callBody, asNum, asOpt, construct, tBounds, bind, Except.bind, asBound_number,
                asBound_none, hl, hr, h1]
    | logTdist x y t cred lc' rc' =>
      cases x with
      | none =>
        cases y with
        | some y => simp [construct, tBounds, bind, Except.bind] at h
        | none =>
          simp only [construct, tBounds, bind, Except.bind, Except.ok.injEq, Obj.leaf.injEq] at h
          obtain ⟨rfl, rfl, rfl⟩ := h
          refine ⟨⟨"log_tdist", [⟨some "t", .flt t⟩] ++ boundArgs lc' rc'⟩, ?_,
            .leaf (.logtdist none none t 90) lc' rc', ?_, Or.inr (Or.inr ⟨t, cred, 90, lc', rc', rfl, rfl⟩)⟩
          · rw [Call.text, argsText_clip F.num _ (by simp) hl hr]
            simp [strObj, Leaf.str?, tStr, distPrefix, argsText, Arg.text, literal, String.append_assoc]
          · cases lc' <;> cases rc' <;> simp [evalCall, signature?, bindArgs, bindKeywords, optNone, optInt,
              boundArgs, clipSig, callBody, asNum, asOpt, construct, tBounds, bind, Except.bind, asBound_number,
              asBound_none, hl, hr]
      | some x =>
        cases y with
        | none => simp [construct, tBounds, bind, Except.bind] at h
        | some y =>
          simp only [construct, tBounds, bind, Except.bind] at h
          split_ifs at h with h1 h2
          simp only [Except.ok.injEq, Obj.leaf.injEq] at h
          obtain ⟨rfl, rfl, rfl⟩ := h
          by_cases hc : cred = 90
          · subst hc
            refine ⟨⟨"log_tdist", [⟨some "x", .flt x⟩, ⟨some "y", .flt y⟩, ⟨some "t", .flt t⟩] ++ boundArgs lc' rc'⟩, ?_,
              .leaf _ lc' rc', ?_, Or.inl rfl⟩
            · rw [Call.text, argsText_clip F.num _ (by simp) hl hr]
              simp [strObj, Leaf.str?, tStr, distPrefix, argsText, Arg.text, literal, String.append_assoc]
              rfl
            · cases lc' <;> cases rc' <;> simp [evalCall, signature?, bindArgs, bindKeywords, optNone, optInt,
                boundArgs, clipSig, callBody, asNum, asOpt, construct, tBounds, bind, Except.bind, asBound_number,
                asBound_none, hl, hr, h1, h2]
          · refine ⟨⟨"log_tdist", [⟨some "x", .flt x⟩, ⟨some "y", .flt y⟩, ⟨some "t", .flt t⟩,
              ⟨some "credibility", .flt cred⟩] ++ boundArgs lc' rc'⟩, ?_, .leaf _ lc' rc', ?_, Or.inl rfl⟩
            · rw [Call.text, argsText_clip F.num _ (by simp) hl hr]
              simp [strObj, Leaf.str?, tStr, hc, distPrefix, argsText, Arg.text, literal, String.append_assoc]
              rfl
            · cases lc' <;> cases rc' <;> simp [evalCall, signature?, bindArgs, bindKeywords, optNone, optInt,
                boundArgs, clipSig, callBody, asNum, asOpt, construct, tBounds, bind, Except.bind, asBound_number,
                asBound_none, hl, hr, h1, h2]
    | triangular a b c lc' rc' =>
      simp only [construct] at h
      split_ifs at h with h1 h2 h3
      simp only [Except.ok.injEq, Obj.leaf.injEq] at h
      obtain ⟨rfl, rfl, rfl⟩ := h
      refine ⟨⟨"triangular", [⟨none, .flt a⟩, ⟨none, .flt b⟩, ⟨none, .flt c⟩]⟩, ?_, _, by
        simp [evalCall, signature?, bindArgs, bindKeywords, req, optNone, clipSig, callBody, asNum, construct,
          h1, h2, h3], Or.inl rfl⟩
      simp [strObj, Leaf.str?, distPrefix, Call.text, argsText, Arg.text, literal, String.append_assoc]
    | pert a b c lam lc' rc' =>
      simp only [construct] at h
      split_ifs at h
      cases h
      exact hp.elim
    | poisson lam lc' rc' =>
      simp only [construct] at h
      simp only [Except.ok.injEq, Obj.leaf.injEq] at h
      obtain ⟨rfl, rfl, rfl⟩ := h
      refine ⟨⟨"poisson", [⟨none, .flt lam⟩] ++ boundArgs lc' rc'⟩, ?_,
        .leaf _ lc' rc', ?_, Or.inl rfl⟩
      · rw [Call.text, argsText_clip F.num _ (by simp) hl hr]
        simp [strObj, Leaf.str?, distPrefix, argsText, Arg.text, literal, String.append_assoc]
      · cases lc' <;> cases rc' <;> simp [evalCall, signature?, bindArgs, bindKeywords, req, optNone, optInt,
          boundArgs, clipSig, callBody, asNum, construct, asBound_number, asBound_none, hl, hr]
    | chisquare df =>
      simp only [construct] at h
      split_ifs at h with h1
      simp only [Except.ok.injEq, Obj.leaf.injEq] at h
      obtain ⟨rfl, rfl, rfl⟩ := h
      refine ⟨⟨"chisquare", [⟨none, .flt df⟩]⟩, ?_, _, by
        simp [evalCall, signature?, bindArgs, bindKeywords, req, callBody, asNum, construct,
          h1], Or.inl rfl⟩
      simp [strObj, Leaf.str?, distPrefix, Call.text, argsText, Arg.text, literal, String.append_assoc]
    | exponential sc lc' rc' =>
      simp only [construct] at h
      split_ifs at h with h1 h2
      simp only [Except.ok.injEq, Obj.leaf.injEq] at h
      obtain ⟨rfl, rfl, rfl⟩ := h
      refine ⟨⟨"exponential", [⟨none, .flt sc⟩] ++ boundArgs lc' rc'⟩, ?_,
        .leaf _ lc' rc', ?_, Or.inl rfl⟩
      · rw [Call.text, argsText_clip F.num _ (by simp) hl hr]
        simp [strObj, Leaf.str?, distPrefix, argsText, Arg.text, literal, String.append_assoc]
      · cases lc' <;> cases rc' <;> simp [evalCall, signature?, bindArgs, bindKeywords, req, optNone, optInt,
          boundArgs, clipSig, callBody, asNum, construct, asBound_number, asBound_none, hl, hr, h1, h2]
    | gamma sh sc lc' rc' =>
      simp only [construct] at h
      simp only [Except.ok.injEq, Obj.leaf.injEq] at h
      obtain ⟨rfl, rfl, rfl⟩ := h
      refine ⟨⟨"gamma", [⟨some "shape", .flt sh⟩, ⟨some "scale", .flt sc⟩] ++ boundArgs lc' rc'⟩, ?_,
        .leaf _ lc' rc', ?_, Or.inl rfl⟩
      · rw [Call.text, argsText_clip F.num _ (by simp) hl hr]
        simp [strObj, Leaf.str?, distPrefix, argsText, Arg.text, literal, String.append_assoc]
        rfl
      · cases lc' <;> cases rc' <;> simp [evalCall, signature?, bindArgs, bindKeywords, req, optNone, optInt,
          boundArgs, clipSig, callBody, asNum, construct, asBound_number, asBound_none, hl, hr]
    | pareto sh =>
      simp only [construct] at h
      simp only [Except.ok.injEq, Obj.leaf.injEq] at h
      obtain ⟨rfl, rfl, rfl⟩ := h
      refine ⟨⟨"pareto", [⟨none, .flt sh⟩]⟩, ?_, _, by
        simp [evalCall, signature?, bindArgs, bindKeywords, req, callBody, asNum, construct],
        Or.inl rfl⟩
      simp [strObj, Leaf.str?, distPrefix, Call.text, argsText, Arg.text, literal, String.append_assoc]
    | geometric p =>
      simp only [construct] at h
      split_ifs at h with h1
      simp only [Except.ok.injEq, Obj.leaf.injEq] at h
      obtain ⟨rfl, rfl, rfl⟩ := h
      refine ⟨⟨"geometric", [⟨some "p", .flt p⟩]⟩, ?_, _, by
        simp [evalCall, signature?, bindArgs, bindKeywords, req, callBody, asNum, construct,
          h1], Or.inl rfl⟩
      simp [strObj, Leaf.str?, distPrefix, Call.text, argsText, Arg.text, literal, String.append_assoc]
      rfl
    | die sides ex =>
      cases hd : dieInit sides ex with
      | error e => simp [construct, hd, bind, Except.bind] at h
      | ok d =>
        simp only [construct, hd, bind, Except.bind, Except.ok.injEq, Obj.leaf.injEq] at h
        obtain ⟨rfl, rfl, rfl⟩ := h
        obtain ⟨s, e⟩ := d
        obtain rfl : e = none := hp
        have hs : dieInit (some s) .absent = .ok ⟨s, none⟩ := by
          cases sides with
          | none => simp [dieInit] at hd
          | some s' =>
            simp only [dieInit] at hd ⊢
            split_ifs at hd with h2
            have : s' = s := by
              split at hd
              · simpa using hd
              · split_ifs at hd
                revert hd
                cases checkFaces s' _ <;> simp [bind, Except.bind]
            rw [← this, if_neg h2]
            simp [ExplodeArg.toList?, this]
        refine ⟨⟨"Die", [⟨none, .int s⟩]⟩, ?_, _, by
          simp [evalCall, signature?, bindArgs, bindKeywords, optNone, callBody, callBody.dieCall, construct, hs,
            bind, Except.bind], Or.inl rfl⟩
        simp [strObj, Leaf.str?, distPrefix, Call.text, argsText, Arg.text, literal, String.append_assoc]
    | coin =>
      simp only [construct, Except.ok.injEq, Obj.leaf.injEq] at h
      obtain ⟨rfl, rfl, rfl⟩ := h
      exact hp.elim
  | @norm x y mean sd cred m s lc rc h =>
    refine ⟨⟨"norm", [⟨some "mean", .flt m⟩, ⟨some "sd", .flt s⟩] ++ boundArgs lc rc⟩, ?_, .leaf _ lc rc, ?_,
      Or.inl rfl⟩
    · rw [Call.text, argsText_clip F.num _ (by simp) hl hr]
      simp [strObj, Leaf.str?, distPrefix, argsText, Arg.text, literal, String.append_assoc,
        round2_two hp.1, round2_two hp.2]
      rfl
    · cases lc <;> cases rc <;> simp [evalCall, signature?, bindArgs, bindKeywords, optNone, optInt, boundArgs,
        clipSig, callBody, asNum, asOpt, normalInit, outOfOrder, asBound_number, asBound_none, hl, hr]

/-- A normal distribution prints as a call that builds the normal distribution with mean and standard deviation
rounded to two decimals: the same one exactly if they have no more decimals. -/
theorem C150_norm (F : StrEnv σ ℝ) (ppf : ℝ → ℝ) (m s : ℝ) {lc rc : Option (Scalar ℝ)}
    (hl : ∀ v, lc = some v → IsNumber v) (hr : ∀ v, rc = some v → IsNumber v) :
    ∃ (c : Call) (m' s' : ℝ),
      strObj F false (.leaf (.normal m s) lc rc : Obj (St σ ℝ) ℝ) = "<Distribution> " ++ c.text F.num ∧
      evalCall ppf c = some (.ok (.leaf (.normal m' s') lc rc : Obj (St σ ℝ) ℝ)) ∧
      TwoDecimals m' ∧ TwoDecimals s' ∧ |m' - m| ≤ 1 / 200 ∧ |s' - s| ≤ 1 / 200 ∧
      ((m' = m ∧ s' = s) ↔ TwoDecimals m ∧ TwoDecimals s) := by
  have htwo : ∀ x : ℝ, TwoDecimals (round2 x) := fun x => ⟨roundEven (x * 100), by rw [round2]; ring⟩
  have hnear : ∀ x : ℝ, |round2 x - x| ≤ 1 / 200 := by
    intro x
    have h := (roundEven_spec (K := ℝ) x).1
    have h2 : round2 x - x = -((100 * x - (roundEven (x * 100) : ℝ)) / 100) := by rw [round2]; ring
    rw [h2, abs_neg, abs_div, abs_of_pos (by norm_num : (0 : ℝ) < 100)]
    linarith
  refine ⟨⟨"norm", [⟨some "mean", .flt (round2 m)⟩, ⟨some "sd", .flt (round2 s)⟩] ++ boundArgs lc rc⟩,
    round2 m, round2 s, ?_, ?_, htwo m, htwo s, hnear m, hnear s, ?_⟩
  · rw [Call.text, argsText_clip F.num _ (by simp) hl hr]
    simp [strObj, Leaf.str?, distPrefix, argsText, Arg.text, literal, String.append_assoc]
    rfl
  · cases lc <;> cases rc <;> simp [evalCall, signature?, bindArgs, bindKeywords, optNone, optInt, boundArgs,
      clipSig, callBody, asNum, asOpt, normalInit, outOfOrder, asBound_number, asBound_none, hl, hr]
  · constructor
    · rintro ⟨h1, h2⟩
      exact ⟨h1 ▸ htwo m, h2 ▸ htwo s⟩
    · rintro ⟨h1, h2⟩
      exact ⟨round2_two h1, round2_two h2⟩

/-- No call of a function of the library prints as a PERT distribution does: `PERT` is not the name of one. -/
theorem C150_pert_fails (F : StrEnv σ ℝ) (ppf : ℝ → ℝ) (a b m lam : ℝ) (lc rc : Option (Scalar ℝ)) (c : Call)
    (h : strObj F false (.leaf (.pert a m b lam) lc rc : Obj (St σ ℝ) ℝ) = "<Distribution> " ++ c.text F.num) :
    evalCall (S := St σ ℝ) ppf c = none := by
  have h2 : ("PERT(" ++ (F.num a ++ ", " ++ F.num m ++ ", " ++ F.num b ++ ", lam=" ++ F.num lam ++
      clipStr F.num lc rc ++ ")")) = c.name ++ ("(" ++ argsText F.num c.args ++ ")") := by
    simpa [strObj, Leaf.str?, distPrefix, Call.text, String.append_assoc] using h
  have h3 := congrArg (fun s => s.toList.head?) h2
  cases hs : signature? c.name with
  | none => simp [evalCall, hs]
  | some sig =>
    exfalso
    unfold signature? at hs
    split at hs <;> first
      | (rename_i hn; rw [hn] at h3; revert h3; simp [String.toList_append])
      | (simp at hs)

/-- Typing in what a lognormal or inverse lognormal distribution prints raises `ValueError`, whatever its
parameters: the text gives both `lognorm_mean`, `lognorm_sd` and `norm_mean`, `norm_sd`, and the function accepts
only one pair. -/
theorem C150_lognorm_fails (num : ℝ → String) (ppf : ℝ → ℝ) {name : String}
    (hn : name = "lognorm" ∨ name = "invlognorm") (lm ls nm ns : ℝ) {lc rc : Option (Scalar ℝ)}
    (hl : ∀ v, lc = some v → IsNumber v) (hr : ∀ v, rc = some v → IsNumber v) :
    ∃ c : Call, logStr num name lm ls nm ns lc rc = c.text num ∧
      evalCall (S := St σ ℝ) ppf c = some (.error .valueError) := by
  refine ⟨⟨name, [⟨some "lognorm_mean", .flt (round2 lm)⟩, ⟨some "lognorm_sd", .flt (round2 ls)⟩,
    ⟨some "norm_mean", .flt (round2 nm)⟩, ⟨some "norm_sd", .flt (round2 ns)⟩] ++ boundArgs lc rc⟩, ?_, ?_⟩
  · rw [Call.text, argsText_clip num _ (by simp) hl hr]
    simp [logStr, argsText, Arg.text, literal, String.append_assoc]
    rfl
  · rcases hn with rfl | rfl <;> cases lc <;> cases rc <;> simp [evalCall, signature?, bindArgs, bindKeywords,
      optNone, optInt, boundArgs, clipSig, callBody, asNum, asOpt, lognormInit, invlognormInit, logChecks,
      outOfOrder, bind, Except.bind]

/-- A constant text prints without quotes: `const('1')` as `const(1)`, a call that builds another
distribution. -/
theorem C150_text_fails (F : StrEnv σ ℝ) (ppf : ℝ → ℝ) :
    ∃ c : Call, strObj F false (.leaf (.const (.str "1")) none none : Obj (St σ ℝ) ℝ) =
        "<Distribution> " ++ c.text F.num ∧
      evalCall ppf c = some (.ok (.leaf (.const (.int 1)) none none : Obj (St σ ℝ) ℝ)) := by
  refine ⟨⟨"const", [⟨none, .int 1⟩]⟩, ?_, ?_⟩
  · simp [strObj, Leaf.str?, distPrefix, Call.text, argsText, Arg.text, literal, Scalar.pstr]
    rfl
  · simp [evalCall, signature?, bindArgs, bindKeywords, req, callBody, construct]

/-- A coin prints `Coin`, which is not a call. -/
theorem C150_coin_fails (F : StrEnv σ ℝ) (c : Call) :
    strObj F false (.leaf .coin none none : Obj (St σ ℝ) ℝ) ≠ "<Distribution> " ++ c.text F.num := by
  intro h
  have h2 : strObj F false (.leaf .coin none none : Obj (St σ ℝ) ℝ) = "<Distribution> Coin" := by
    simp [strObj, Leaf.str?, distPrefix]
  have h3 : '(' ∈ "<Distribution> Coin".toList := by
    rw [← h2, h]
    simp [Call.text, String.toList_append]
  exact absurd h3 (by decide)

/-- `gamma(2, 3, rclip=9)` prints `gamma(shape=2, scale=3, rclip=9)`. -/
example (F : StrEnv σ ℝ) (ppf : ℝ → ℝ) : ∃ c : Call,
    strObj F false (.leaf (.gamma 2 3) none (some (.int 9)) : Obj (St σ ℝ) ℝ) =
      "<Distribution> " ++ c.text F.num ∧
    ∃ d, evalCall ppf c = some (.ok d) ∧
      SameDist (.leaf (.gamma 2 3) none (some (.int 9)) : Obj (St σ ℝ) ℝ) d :=
  C150_reads_back F ppf (.call (c := .gamma 2 3 none (some (.int 9))) rfl) (by simp)
    (by rintro v h; cases h; trivial) trivial

/-- `norm(mean=0.25, sd=1)` has no more than two decimals. -/
example (ppf : ℝ → ℝ) : Built (σ := σ) ppf (.normal 0.25 1) none none ∧ PrintsItsCall (.normal 0.25 1) := by
  refine ⟨.norm (x := none) (y := none) (mean := some 0.25) (sd := some 1) (cred := 90) _ _ ?_,
    ⟨25, by norm_num⟩, ⟨100, by norm_num⟩⟩
  simp [normalInit, outOfOrder]

end Verif
