import Verif.Lemmas.Group
import Verif.Lemmas.DemoGen
import Verif.Spec.JointDraw
import Verif.Props.Correlation

/-!
# Correlated variables share joint draws: C32, C33

A history is a list of `sample` calls on members of a correlation group, interleaved with anything else
that does not touch the group.
-/

namespace Verif

variable {σ K : Type} [Field K] [LinearOrder K] [FloorRing K]

/-- Arguments of a `sample` call on a member: number of samples and explicit bounds. -/
structure ReadArgs (K : Type) where
  n : ℕ
  lc : Option (Scalar K)
  rc : Option (Scalar K)

/-- One step of a history: a `sample` call on a member, or something else. -/
inductive GroupOp (σ K : Type) (m : ℕ) where
  | read (i : Fin m) (a : ReadArgs K)
  | other (f : St σ K → St σ K)

/-- The answers of a history: member, arguments and result of each call. -/
def runGroup (E : Env σ K) (g m : ℕ) (members : Fin m → Obj (St σ K) K) :
    List (GroupOp σ K m) → St σ K → List (ℕ × ReadArgs K × Except PyErr (Samples K))
  | [], _ => []
  | .read i a :: ops, s =>
    (i.1, a, (sampleObj E (.corr g m members i) a.n a.lc a.rc s).1) ::
      runGroup E g m members ops (sampleObj E (.corr g m members i) a.n a.lc a.rc s).2
  | .other f :: ops, s => runGroup E g m members ops (f s)

/-- `cols` is a joint draw of `n` samples: independent samples of all members, one after the other,
then passed through the group's correlation step. -/
def IsJointDraw (E : Env σ K) (g m : ℕ) (members : Fin m → Obj (St σ K) K) (n : ℕ)
    (cols : List (List K)) : Prop :=
  ∃ (s s1 : St σ K) (xs : List (Samples K)) (indep : List (List K)),
    SM.Runs (fun j => sampleObj E (members j) n none none) s (List.finRange m) xs s1 ∧
    List.Forall₂ (fun x c => toColumn n x = .ok c) xs indep ∧ E.induce g indep = .ok cols

/-- `r` is the column `c`, clipped to the bounds of the variable and of the call. -/
def IsClipped (E : Env σ K) (own : Option (Scalar K) × Option (Scalar K)) (a : ReadArgs K)
    (c : List K) (r : Except PyErr (Samples K)) : Prop :=
  ∃ l u, combineL a.lc own.1 = .ok l ∧ combineR a.rc own.2 = .ok u ∧
    r = applyClips E.powf l u (.arr (c.map .flt))

/-- The bounds of member `i`. -/
def memberClips {m : ℕ} (members : Fin m → Obj (St σ K) K) (i : ℕ) :
    Option (Scalar K) × Option (Scalar K) :=
  if h : i < m then (members ⟨i, h⟩).clips else (none, none)

/-- What the left-over samples of the group are. -/
def LeftOver (g m : ℕ) (s : St σ K) (cur : Option (List (List K))) (read : List ℕ) : Prop :=
  ∀ j, j < m → s.left g j =
    match cur with
    | none => none
    | some cols => if j ∈ read then none else (cols[j]?).map fun c => c.map .flt

theorem mapL_joint {E : Env σ K} {m : ℕ} {members : Fin m → Obj (St σ K) K} {n : ℕ} :
    ∀ {js : List (Fin m)} {cols : List (List K)} {s s1 : St σ K},
    SM.Runs (fun j => SM.bind (withClips E (members j).clips (rawObj E (members j)) n none none)
      fun x => SM.lift (toColumn n x)) s js cols s1 →
    ∃ xs, SM.Runs (fun j => sampleObj E (members j) n none none) s js xs s1 ∧
      List.Forall₂ (fun x c => toColumn n x = .ok c) xs cols := by
  intro js cols s s1 h
  induction h with
  | nil => exact ⟨[], .nil _, .nil⟩
  | cons h1 _ ih =>
    obtain ⟨xs, h2, h3⟩ := ih
    obtain ⟨x, s', ha, hb⟩ := SM.bind_ok.1 h1
    obtain ⟨hb', rfl⟩ := SM.lift_ok.1 hb
    exact ⟨x :: xs, .cons ha h2, .cons hb' h3⟩

/-- One `sample` call on a member: it fails without effect on the group, or hands out the left-over
column, or makes a joint draw. -/
theorem corr_step {E : Env σ K} {g m : ℕ} {members : Fin m → Obj (St σ K) K}
    (hav : ∀ j, (members j).Avoids g) (i : Fin m) (a : ReadArgs K) (s : St σ K) :
    let out := sampleObj E (.corr g m members i) a.n a.lc a.rc s
    ((∃ e, out.1 = .error e) ∧ out.2.left g = s.left g) ∨
    (∃ xs l u, s.left g i = some xs ∧ combineL a.lc (members i).clips.1 = .ok l ∧
      combineR a.rc (members i).clips.2 = .ok u ∧ out.1 = applyClips E.powf l u (.arr xs) ∧
      out.2.left g = fun j => if j = i.1 then none else s.left g j) ∨
    (∃ cols c l u, s.left g i = none ∧ IsJointDraw E g m members a.n cols ∧ cols[i.1]? = some c ∧
      combineL a.lc (members i).clips.1 = .ok l ∧ combineR a.rc (members i).clips.2 = .ok u ∧
      out.1 = applyClips E.powf l u (.arr (c.map .flt)) ∧
      out.2.left g = fun j => if j ≠ i.1 then
        match cols[j]? with
        | some c' => some (c'.map .flt)
        | none => s.left g j
      else s.left g j) := by
  intro out
  have hout : out = sampleObj E (.corr g m members i) a.n a.lc a.rc s := rfl
  unfold sampleObj withClips at hout
  simp only [Obj.clips] at hout
  by_cases hn : a.n = 0
  · rw [if_pos hn] at hout
    exact .inl ⟨⟨_, by rw [hout]; rfl⟩, by rw [hout]; rfl⟩
  rw [if_neg hn] at hout
  cases hl : combineL a.lc (members i).clips.1 with
  | error e =>
    rw [hl] at hout
    exact .inl ⟨⟨e, by rw [hout]; rfl⟩, by rw [hout]; rfl⟩
  | ok l =>
    cases hu : combineR a.rc (members i).clips.2 with
    | error e =>
      rw [hl, hu] at hout
      exact .inl ⟨⟨e, by rw [hout]; rfl⟩, by rw [hout]; rfl⟩
    | ok u =>
      rw [hl, hu] at hout
      have hout : out = SM.bind (rawObj E (.corr g m members i) a.n)
        (fun x => SM.lift (applyClips E.powf l u x)) s := hout
      unfold rawObj at hout
      cases hleft : s.left g i with
      | some xs =>
        refine .inr (.inl ⟨xs, l, u, rfl, rfl, rfl, ?_, ?_⟩)
        · rw [hout]
          simp only [SM.bind, takeLeft, hleft, SM.pure, SM.lift]
        · rw [hout]
          simp only [SM.bind, takeLeft, hleft, SM.pure, SM.lift]
          funext j
          simp
      | none =>
        have htake : takeLeft (σ := σ) (K := K) g i s = (.ok none, s) := by
          unfold takeLeft; rw [hleft]
        have hout : out = SM.bind (SM.bind (SM.mapL (fun j =>
            SM.bind (withClips E (members j).clips (rawObj E (members j)) a.n none none) fun x =>
            SM.lift (toColumn a.n x)) (List.finRange m)) (fun cols =>
            SM.bind (SM.lift (E.induce g cols)) fun cols' =>
            storeOthers g i cols')) (fun x => SM.lift (applyClips E.powf l u x)) s := by
          rw [hout]
          simp only [SM.bind, htake]
        have hkeep : SM.Keeps g (SM.mapL (fun j =>
            SM.bind (withClips E (members j).clips (rawObj E (members j)) a.n none none) fun x =>
            SM.lift (toColumn a.n x)) (List.finRange m)) :=
          .mapL (fun j => .bind (withClips_keeps E _ (rawObj_keeps E (hav j)) a.n none none)
            fun _ => .lift _) _
        have hk := hkeep s
        cases hm : SM.mapL (fun j =>
            SM.bind (withClips E (members j).clips (rawObj E (members j)) a.n none none) fun x =>
            SM.lift (toColumn a.n x)) (List.finRange m) s with
        | mk r s1 =>
          rw [hm] at hk
          cases r with
          | error e =>
            refine .inl ⟨⟨e, ?_⟩, ?_⟩
            · rw [hout]; simp only [SM.bind, hm]
            · rw [hout]; simp only [SM.bind, hm]; exact hk
          | ok indep =>
            cases hi : E.induce g indep with
            | error e =>
              refine .inl ⟨⟨e, ?_⟩, ?_⟩
              · rw [hout]; simp only [SM.bind, hm, SM.lift, hi]
              · rw [hout]; simp only [SM.bind, hm, SM.lift, hi]; exact hk
            | ok cols =>
              cases hc : cols[i.1]? with
              | none =>
                refine .inl ⟨⟨.assertionError, ?_⟩, ?_⟩
                · rw [hout]; simp only [SM.bind, hm, SM.lift, hi, storeOthers, hc]
                · rw [hout]; simp only [SM.bind, hm, SM.lift, hi, storeOthers, hc]; exact hk
              | some c =>
                obtain ⟨xs, h1, h2⟩ := mapL_joint (SM.mapL_ok.1 hm)
                refine .inr (.inr ⟨cols, c, l, u, rfl, ⟨s, s1, xs, indep, h1, h2, hi⟩, hc, rfl, rfl,
                  ?_, ?_⟩)
                · rw [hout]; simp only [SM.bind, hm, SM.lift, hi, storeOthers, hc]
                · rw [hout]; simp only [SM.bind, hm, SM.lift, hi, storeOthers, hc]
                  funext j
                  have hkj : s1.left g j = s.left g j := congrFun hk j
                  by_cases hji : j = i.1
                  · rw [if_neg (by simp [hji]), if_neg (by simp [hji]), hkj]
                  · rw [if_pos ⟨trivial, hji⟩, if_pos hji, hkj]
                    cases cols[j]? <;> rfl

theorem joint_length {E : Env σ K} {g m : ℕ} {members : Fin m → Obj (St σ K) K} {n : ℕ}
    {cols : List (List K)}
    (hind : ∀ a b, E.induce g a = .ok b → b.length = a.length)
    (h : IsJointDraw E g m members n cols) : cols.length = m := by
  obtain ⟨s, s1, xs, indep, h1, h2, h3⟩ := h
  rw [hind _ _ h3, ← h2.length_eq, h1.length, List.length_finRange]

/-- **C32.** Every history of `sample` calls on members of a correlation group – any group size, any
order, any numbers of samples and bounds, with errors, and with any other activity in between that
does not touch the group – is explained by joint draws in the sense of `Spec.Joint`: each answer is the
member's column of the most recent joint draw (clipped), no column is handed out twice, and a new joint
draw is made only for a member whose column has been used.

The members' own distributions must not themselves contain the group, and the correlation step must
keep the number of columns (`CorrGroup.induce` does, `induce_length`). -/
theorem C32_history {E : Env σ K} {g m : ℕ} {members : Fin m → Obj (St σ K) K}
    (hav : ∀ j, (members j).Avoids g)
    (hind : ∀ a b, E.induce g a = .ok b → b.length = a.length)
    (ops : List (GroupOp σ K m))
    (hother : ∀ f, GroupOp.other f ∈ ops → ∀ s, (f s).left g = s.left g) (s : St σ K)
    (hfresh : ∀ j, s.left g j = none) :
    Spec.Joint (fun a cols => IsJointDraw E g m members a.n cols)
      (fun i a c r => IsClipped E (memberClips members i) a c r) (fun r => ∃ e, r = .error e)
      none [] (runGroup E g m members ops s) := by
  suffices h : ∀ (ops : List (GroupOp σ K m)),
      (∀ f, GroupOp.other f ∈ ops → ∀ s, (f s).left g = s.left g) → ∀ (s : St σ K) cur read,
      (∀ cols, cur = some cols → cols.length = m) → LeftOver g m s cur read →
      Spec.Joint (fun a cols => IsJointDraw E g m members a.n cols)
        (fun i a c r => IsClipped E (memberClips members i) a c r) (fun r => ∃ e, r = .error e)
        cur read (runGroup E g m members ops s) from
    h ops hother s none [] (by simp) (fun j _ => hfresh j)
  intro ops
  induction ops with
  | nil => intro _ s cur read _ _; exact .nil _ _
  | cons op ops ih =>
    intro hother s cur read hlen hleft
    have hother' : ∀ f, GroupOp.other f ∈ ops → ∀ s, (f s).left g = s.left g :=
      fun f hf => hother f (by simp [hf])
    cases op with
    | other f =>
      refine ih hother' (f s) cur read hlen fun j hj => ?_
      rw [hother f (by simp) s]
      exact hleft j hj
    | read i a =>
      unfold runGroup
      have hmc : memberClips members i.1 = (members i).clips := by simp [memberClips]
      rcases corr_step hav i a s with ⟨herr, hk⟩ | ⟨xs, l, u, hx, hl, hu, hr, hk⟩ |
        ⟨cols, c, l, u, hx, hd, hc, hl, hu, hr, hk⟩
      · refine .failed herr (ih hother' _ cur read hlen fun j hj => ?_)
        rw [hk]
        exact hleft j hj
      · have h1 := hleft i.1 i.2
        rw [hx] at h1
        cases cur with
        | none => cases h1
        | some cols =>
          dsimp only at h1
          split at h1
          · cases h1
          · rename_i hnr
            cases hc : cols[i.1]? with
            | none => rw [hc] at h1; cases h1
            | some c =>
              rw [hc] at h1
              cases h1
              refine .same hc hnr ⟨l, u, by rw [hmc]; exact hl, by rw [hmc]; exact hu, hr⟩
                (ih hother' _ (some cols) (i.1 :: read) hlen fun j hj => ?_)
              rw [hk]
              dsimp only
              by_cases hji : j = i.1
              · rw [if_pos hji, if_pos (by simp [hji])]
              · rw [if_neg hji, hleft j hj]
                dsimp only
                by_cases hjr : j ∈ read
                · rw [if_pos hjr, if_pos (by simp [hjr])]
                · rw [if_neg hjr, if_neg (by simp [hjr, hji])]
      · have hneed : cur = none ∨ i.1 ∈ read := by
          have h1 := hleft i.1 i.2
          rw [hx] at h1
          cases cur with
          | none => exact .inl rfl
          | some cols0 =>
            dsimp only at h1
            split at h1
            · exact .inr ‹_›
            · have : i.1 < cols0.length := by rw [hlen _ rfl]; exact i.2
              rw [List.getElem?_eq_getElem this] at h1
              cases h1
        have hcl := joint_length hind hd
        refine .fresh hneed hd hc ⟨l, u, by rw [hmc]; exact hl, by rw [hmc]; exact hu, hr⟩
          (ih hother' _ (some cols) [i.1] (by rintro _ ⟨⟩; exact hcl) fun j hj => ?_)
        rw [hk]
        dsimp only
        by_cases hji : j = i.1
        · rw [if_neg (by simp [hji]), if_pos (by simp [hji]), hji, hx]
        · rw [if_pos hji, if_neg (by simp [hji]), List.getElem?_eq_getElem (by rw [hcl]; exact hj)]
          rfl

/-- From the specification: members read once each, without errors, all come from one joint draw. -/
theorem Spec.Joint.single {A R C : Type} {Draw : A → List C → Prop} {Ret : ℕ → A → C → R → Prop}
    {Fail : R → Prop} {h : List (ℕ × A × R)} {cols : List C} {read : List ℕ}
    (hj : Spec.Joint Draw Ret Fail (some cols) read h) (hnd : (h.map Prod.fst).Nodup)
    (hdis : ∀ e ∈ h, e.1 ∉ read) (hok : ∀ e ∈ h, ¬ Fail e.2.2) :
    ∀ e ∈ h, ∃ c, cols[e.1]? = some c ∧ Ret e.1 e.2.1 c e.2.2 := by
  generalize hcur : some cols = cur at hj
  induction hj with
  | nil => intro e he; cases he
  | same hc hi hr _ ih =>
    cases hcur
    simp only [List.map_cons, List.nodup_cons] at hnd
    intro e he
    rcases List.mem_cons.1 he with rfl | he
    · exact ⟨_, hc, hr⟩
    · refine ih hnd.2 (fun e he => ?_) (fun e he => hok e (by simp [he])) rfl e he
      simp only [List.mem_cons, not_or]
      refine ⟨fun h => hnd.1 ?_, hdis e (by simp [he])⟩
      rw [← h]
      exact List.mem_map.2 ⟨e, he, rfl⟩
  | fresh hneed _ _ _ _ _ =>
    cases hcur
    rcases hneed with h | h
    · cases h
    · exact absurd h (hdis _ List.mem_cons_self)
  | failed hf _ _ => exact absurd hf (hok _ List.mem_cons_self)

/-- **C32, each member once.** Sampling some members of a fresh group once each – any subset, any order,
with other activity in between – without errors returns the columns of a single joint draw. -/
theorem C32_one_draw {E : Env σ K} {g m : ℕ} {members : Fin m → Obj (St σ K) K}
    (hav : ∀ j, (members j).Avoids g)
    (hind : ∀ a b, E.induce g a = .ok b → b.length = a.length)
    (ops : List (GroupOp σ K m))
    (hother : ∀ f, GroupOp.other f ∈ ops → ∀ s, (f s).left g = s.left g) (s : St σ K)
    (hfresh : ∀ j, s.left g j = none)
    (honce : ((runGroup E g m members ops s).map Prod.fst).Nodup)
    (hok : ∀ e ∈ runGroup E g m members ops s, ∀ err, e.2.2 ≠ .error err)
    (hne : runGroup E g m members ops s ≠ []) :
    ∃ n cols, IsJointDraw E g m members n cols ∧ ∀ e ∈ runGroup E g m members ops s,
      ∃ c, cols[e.1]? = some c ∧ IsClipped E (memberClips members e.1) e.2.1 c e.2.2 := by
  have hj := C32_history hav hind ops hother s hfresh
  generalize runGroup E g m members ops s = h at *
  cases hj with
  | nil => exact absurd rfl hne
  | fresh hneed hd hc hr rest =>
    refine ⟨_, _, hd, fun e he => ?_⟩
    rcases List.mem_cons.1 he with rfl | he
    · exact ⟨_, hc, hr⟩
    · simp only [List.map_cons, List.nodup_cons] at honce
      refine rest.single honce.2 (fun e he => ?_)
        (fun e he ⟨err, herr⟩ => hok e (by simp [he]) err herr) e he
      simp only [List.mem_singleton]
      intro h
      exact honce.1 (by rw [← h]; exact List.mem_map.2 ⟨e, he, rfl⟩)
  | failed hf _ =>
    obtain ⟨e, he⟩ := hf
    exact absurd he (hok _ List.mem_cons_self e)

/-- The correlation step keeps the number of columns and their length. -/
theorem induce_length {C : CorrEnv K} (hA : IsArgsort C.argsort) {G : CorrGroup K}
    {cols out : List (List K)} (h : G.induce C cols = .ok out) :
    out.length = cols.length ∧ ∀ n, (∀ c ∈ cols, c.length = n) → ∀ c ∈ out, c.length = n := by
  rcases (induce_ok h).2 with ⟨_, rfl⟩ | ⟨_, ts, ht, hl, hF, _⟩
  · exact ⟨rfl, fun _ h => h⟩
  · have hz : (cols.zip ts).length = cols.length := by simp [hl]
    refine ⟨by rw [← hF.length_eq, hz], fun n hn c hc => ?_⟩
    obtain ⟨i, hi, rfl⟩ := List.mem_iff_getElem.1 hc
    rw [List.forall₂_iff_get] at hF
    have hic : i < cols.length := by rw [← hz, hF.1]; exact hi
    have h3 := hF.2 i (by rw [hz]; exact hic) hi
    simp only [List.get_eq_getElem, List.getElem_zip] at h3
    have hlen : (ts[i]'(by omega)).length = cols[i].length := by
      rw [targetScores_length ht _ (List.getElem_mem _), hn _ (List.getElem_mem hic)]
      cases cols with
      | nil => simp at hic
      | cons c cs => exact hn c (by simp)
    rw [(sortColumn_mono hA hlen h3).1]
    exact hn _ (List.getElem_mem hic)

theorem toColumn_length {n : ℕ} {x : Samples K} {c : List K} (h : toColumn n x = .ok c) :
    c.length = n := by
  obtain ⟨xs, _, h⟩ := Except.bind_ok_iff.1 h
  split at h
  · rename_i hl; cases h; exact hl
  · cases h

theorem IsJointDraw.col_length {E : Env σ K} {g m : ℕ} {members : Fin m → Obj (St σ K) K} {n : ℕ}
    {cols : List (List K)}
    (hind : ∀ a b, E.induce g a = .ok b → ∀ n, (∀ c ∈ a, c.length = n) → ∀ c ∈ b, c.length = n)
    (h : IsJointDraw E g m members n cols) : ∀ c ∈ cols, c.length = n := by
  obtain ⟨_, _, xs, indep, _, h2, h3⟩ := h
  refine hind _ _ h3 n fun c hc => ?_
  obtain ⟨i, hi, rfl⟩ := List.mem_iff_getElem.1 hc
  rw [List.forall₂_iff_get] at h2
  exact toColumn_length (h2.2 i (by rw [h2.1]; exact hi) hi)

/-- Clipping an array keeps the number of samples. -/
theorem applyClips_length {powf : K → K → Option K} {l u : Option (Scalar K)} {xs : List (Scalar K)}
    {z : Samples K} (h : applyClips powf l u (.arr xs) = .ok z) : z.toList.length = xs.length := by
  by_cases hx : xs.length = 1
  · obtain ⟨v, rfl⟩ := List.length_eq_one_iff.1 hx
    obtain ⟨s1, h1, h2⟩ := Except.bind_ok_iff.1 h
    have hs1 : s1.toList.length = 1 := by
      cases l with
      | none => cases h1; rfl
      | some l =>
        simp only [applyL, Samples.safeLen, List.length_singleton, gt_iff_lt, lt_irrefl, if_false] at h1
        obtain ⟨b, _, h1⟩ := Except.bind_ok_iff.1 h1
        cases h1
        split <;> rfl
    cases u with
    | none => cases h2; exact hs1
    | some u =>
      cases s1 with
      | scalar w =>
        have hs : ¬ (Samples.scalar w : Samples K).safeLen > 1 := by
          cases w <;> simp [Samples.safeLen]
        simp only [applyR, if_neg hs] at h2
        obtain ⟨b, _, h2⟩ := Except.bind_ok_iff.1 h2
        cases h2
        rfl
      | arr ws =>
        obtain ⟨w, rfl⟩ := List.length_eq_one_iff.1 hs1
        simp only [applyR, Samples.safeLen, List.length_singleton, gt_iff_lt, lt_irrefl, if_false] at h2
        obtain ⟨b, _, h2⟩ := Except.bind_ok_iff.1 h2
        cases h2
        split <;> rfl
  · exact shape_length (applyClips_shape (n := xs.length) (x := .arr xs) ⟨hx, rfl⟩ h)

/-- **C33 (when every call on the group asks for the same number).** All successful answers then have
that many samples. -/
theorem C33_same_n_partial {E : Env σ K} {g m : ℕ} {members : Fin m → Obj (St σ K) K}
    (hav : ∀ j, (members j).Avoids g)
    (hind : ∀ a b, E.induce g a = .ok b → b.length = a.length)
    (hindc : ∀ a b, E.induce g a = .ok b → ∀ n, (∀ c ∈ a, c.length = n) → ∀ c ∈ b, c.length = n)
    (ops : List (GroupOp σ K m))
    (hother : ∀ f, GroupOp.other f ∈ ops → ∀ s, (f s).left g = s.left g) (s : St σ K)
    (hfresh : ∀ j, s.left g j = none) {n : ℕ} (hn : ∀ i a, GroupOp.read i a ∈ ops → a.n = n) :
    ∀ e ∈ runGroup E g m members ops s, ∀ z, e.2.2 = .ok z → z.toList.length = n := by
  have hj := C32_history hav hind ops hother s hfresh
  have hargs : ∀ e ∈ runGroup E g m members ops s, e.2.1.n = n := by
    clear hj hother hfresh
    induction ops generalizing s with
    | nil => intro e he; cases he
    | cons op ops ih =>
      intro e he
      cases op with
      | other f => exact ih (f s) (fun i a h => hn i a (by simp [h])) e he
      | read i a =>
        unfold runGroup at he
        rcases List.mem_cons.1 he with rfl | he
        · exact hn i a (by simp)
        · exact ih _ (fun i a h => hn i a (by simp [h])) e he
  generalize runGroup E g m members ops s = h at *
  have key : ∀ cur read h, Spec.Joint (fun (a : ReadArgs K) cols => IsJointDraw E g m members a.n cols)
      (fun i a c r => IsClipped E (memberClips members i) a c r) (fun r => ∃ e, r = .error e)
      cur read h → (∀ e ∈ h, e.2.1.n = n) →
      (∀ cols, cur = some cols → ∀ c ∈ cols, c.length = n) →
      ∀ e ∈ h, ∀ z, e.2.2 = .ok z → z.toList.length = n := by
    intro cur read h hj
    have hret : ∀ {i : ℕ} {a : ReadArgs K} {c : List K} {r : Except PyErr (Samples K)},
        IsClipped E (memberClips members i) a c r → c.length = n → ∀ z, r = .ok z →
        z.toList.length = n := by
      rintro i a c r ⟨l, u, _, _, hr⟩ hc z hz
      rw [hr] at hz
      rw [applyClips_length hz, List.length_map, hc]
    induction hj with
    | nil => intro _ _ e he; cases he
    | same hc _ hr _ ih =>
      intro ha hcur e he
      rcases List.mem_cons.1 he with rfl | he
      · exact hret hr (hcur _ rfl _ (List.mem_of_getElem? hc))
      · exact ih (fun e he => ha e (by simp [he])) hcur e he
    | fresh _ hd hc hr _ ih =>
      intro ha _ e he
      have hlen := IsJointDraw.col_length hindc hd
      have hn' := ha _ List.mem_cons_self
      simp only at hn'
      rw [hn'] at hlen
      rcases List.mem_cons.1 he with rfl | he
      · exact hret hr (hlen _ (List.mem_of_getElem? hc))
      · refine ih (fun e he => ha e (by simp [he])) ?_ e he
        rintro _ ⟨⟩
        exact hlen
    | failed hf _ ih =>
      intro ha hcur e he z hz
      rcases List.mem_cons.1 he with rfl | he
      · obtain ⟨err, herr⟩ := hf
        rw [herr] at hz
        cases hz
      · exact ih (fun e he => ha e (by simp [he])) hcur e he z hz
  exact key _ _ _ hj hargs (by simp)

/-! ### Concrete histories -/

/-- Two correlated uniform variables. -/
def pairMembers : Fin 2 → Obj (St ℕ ℚ) ℚ := fun i =>
  .leaf (.uniform 0 (if i = 0 then 10 else 20)) none none

theorem pairMembers_avoid (j : Fin 2) : (pairMembers j).Avoids 0 := .leaf _ _ _

def plainRead (n : ℕ) : ReadArgs ℚ := ⟨n, none, none⟩

/-- **C33 is false of the code.** After `sample(a, n=3)`, `sample(b, n=5)` returns the three left-over
samples. -/
theorem C33_other_n_fails : ∃ z : Samples ℚ,
    (runGroup demoEnv 0 2 pairMembers [.read 0 (plainRead 3), .read 1 (plainRead 5)]
      (demoSt 0)).map (fun e => e.2.2) = [.ok (.arr [.flt 0, .flt 3, .flt 6]), .ok z] ∧
    z.toList.length = 3 := by
  refine ⟨.arr [.flt 18, .flt 4, .flt 10], ?_, rfl⟩
  decide +kernel

/-- **C33 is false of the code for one sample, too**: a correlated variable sampled once is an array
of length one, not a number. -/
theorem C33_scalar_fails : ∃ v, (sampleObj demoEnv (.corr 0 2 pairMembers 0) 1 none none (demoSt 0)).1
    = .ok (.arr [v]) := ⟨.flt 0, by decide +kernel⟩

/-- The hypotheses of C32 and C33 hold for this pair, with a run that succeeds. -/
example : ∀ e ∈ runGroup demoEnv 0 2 pairMembers
    [.read 1 (plainRead 3), .other (fun s => { s with rng := 5 }), .read 0 (plainRead 3)] (demoSt 0),
    ∀ z, e.2.2 = .ok z → z.toList.length = 3 :=
  C33_same_n_partial pairMembers_avoid (by rintro a b ⟨⟩; rfl) (by rintro a b ⟨⟩ n h; exact h) _
    (by
      intro f hf s
      simp only [List.mem_cons, reduceCtorEq, GroupOp.other.injEq, List.not_mem_nil, or_false,
        false_or] at hf
      rw [hf])
    _ (fun _ => rfl) (by
      intro i a h
      simp only [List.mem_cons, GroupOp.read.injEq, reduceCtorEq, List.not_mem_nil, or_false,
        false_or] at h
      rcases h with h | h <;> rw [h.2] <;> rfl)

example : (runGroup demoEnv 0 2 pairMembers
    [.read 1 (plainRead 3), .other (fun s => { s with rng := 5 }), .read 0 (plainRead 3)]
      (demoSt 0)).map (fun e => e.2.2)
    = [.ok (.arr [.flt 18, .flt 4, .flt 10]), .ok (.arr [.flt 0, .flt 3, .flt 6])] := by
  decide +kernel

end Verif
