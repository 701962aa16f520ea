import Verif.Lemmas.HeapCont

/-!
# Every parser of the heap model refines the one of the functional model
-/

namespace Reparsec.Heaped

variable {τ α β γ : Type}

section

variable {h0 h : Heap τ}

theorem OwnS.ext {h' : Heap τ} {r : HSimple α} (o : OwnS h0 h r) (e : Ext h h') :
    OwnS h0 h' r := by
  cases r with
  | ok r => exact ⟨o.1, Nat.lt_of_lt_of_le o.2 e.nOks⟩
  | error r => exact ⟨o.1, Nat.lt_of_lt_of_le o.2 e.nFails⟩

theorem OwnR.ext {h' : Heap τ} {r : HResult α} (o : OwnR h0 h r) (e : Ext h h') :
    OwnR h0 h' r := by
  cases r with
  | ok r => exact ⟨o.1, Nat.lt_of_lt_of_le o.2 e.nOks⟩
  | error r => exact ⟨o.1, Nat.lt_of_lt_of_le o.2 e.nFails⟩
  | recovered r => exact ⟨⟨o.1.1, Nat.lt_of_lt_of_le o.1.2 e.nFails⟩, o.2.ext e⟩

theorem Runs.raise {A B : Type} {rd : Heap τ → A → B} {Own : Heap τ → A → Prop} (e : Ext h0 h)
    (x : Exn) : Runs h0 h (HM.raise x) (.raise x) rd Own := ⟨e, rfl⟩

theorem Runs.ite {A B : Type} {rd : Heap τ → A → B} {Own : Heap τ → A → Prop} {b b' : Bool}
    {m1 m2 : HM τ A} {o1 o2 : Out B} (hb : b' = b)
    (h1 : b = true → Runs h0 h m1 o1 rd Own) (h2 : b = false → Runs h0 h m2 o2 rd Own) :
    Runs h0 h (if b then m1 else m2) (if b' then o1 else o2) rd Own := by
  subst hb
  cases b' with
  | true => exact h1 rfl
  | false => exact h2 rfl

theorem Runs.diverge {A B : Type} {rd : Heap τ → A → B} {Own : Heap τ → A → Prop}
    (e : Ext h0 h) : Runs h0 h HM.diverge .diverge rd Own := ⟨e, rfl⟩

/-- A single new repair, returned in a new `Recovered`. -/
theorem runs_single (e : Ext h0 h) (cost : Nat) (prio : Option Nat) (ins : Int) (op : RepairOp)
    (v : α) (pos : Nat) (ctx : Ctx τ) (loc : Loc) (ex : List String) (c : Bool)
    (mp : Option Nat) (loc' : Loc) (ex' : List String) :
    Runs h0 h
      ((do let i ← newOp op loc ex false
           newRepair cost prio ins [i] v pos ctx [] c) >>= fun x => retRec [x] mp loc' ex')
      (.ret (.recovered ⟨[⟨cost, prio, ins, [⟨op, loc, ex, false⟩], v, pos, ctx, [], c⟩], mp,
        loc', ex', false⟩)) HResult.read (OwnR h0) := by
  refine Runs.bind (g := fun w => .ret (Result.recovered ⟨[w], mp, loc', ex', false⟩))
    (runs_oneOp e cost prio ins op v pos ctx loc ex c) ?_
  intro x h' e' hx
  exact runs_retRec e' (hx.2.base e) mp loc' ex'

end

/-! ### Primitives -/

theorem refines_pure (x : α) : Refines (pureFns (τ := τ) x) (Reparsec.pureFns x) :=
  ⟨fun _ _ _ h => runs_retOkS (.refl h) _ _ _ _ _, fun _ _ _ _ _ h => runs_retOk (.refl h) _ _ _ _ _⟩

theorem refines_pureFn (x : Except Exn α) :
    Refines (pureFnFns (τ := τ) x) (Reparsec.pureFnFns x) := by
  refine ⟨fun _ _ _ h => ?_, fun _ _ _ _ _ h => ?_⟩
  · exact Runs.ofExcept (.refl h) fun a _ => runs_retOkS (.refl h) _ _ _ _ _
  · exact Runs.ofExcept (.refl h) fun a _ => runs_retOk (.refl h) _ _ _ _ _

theorem refines_unexpected (x : String) :
    Refines (unexpectedFns (τ := τ) x) (Reparsec.unexpectedFns x) :=
  ⟨fun _ _ _ h => runs_retErrS (.refl h) _ _, fun _ _ _ _ _ h => runs_retErr (.refl h) _ _⟩

theorem refines_eof : Refines (eofFns (τ := τ)) Reparsec.eofFns := by
  refine ⟨fun s pos ctx h => ?_, fun s pos ctx ins rem h => ?_⟩
  · show Runs h h (if _ then _ else _) (if _ then _ else _) _ _
    split
    · exact runs_retOkS (.refl h) _ _ _ _ _
    · exact runs_retErrS (.refl h) _ _
  · show Runs h h (if _ then _ else _) (if _ then _ else _) _ _
    split
    · exact runs_retOk (.refl h) _ _ _ _ _
    · cases rem with
      | none => exact runs_retErr (.refl h) _ _
      | some _ => exact runs_single (.refl h) _ _ _ _ _ _ _ _ _ _ _ _ _

theorem refines_satisfy (test : τ → Except Exn Bool) :
    Refines (satisfyFns test) (Reparsec.satisfyFns test) := by
  refine ⟨fun s pos ctx h => ?_, fun s pos ctx ins rem h => ?_⟩
  · refine Runs.ofExcept (.refl h) fun a _ => ?_
    cases a with
    | some t => exact runs_retOkS (.refl h) _ _ _ _ _
    | none => exact runs_retErrS (.refl h) _ _
  · refine Runs.ofExcept (.refl h) fun a _ => ?_
    cases a with
    | some t => exact runs_retOk (.refl h) _ _ _ _ _
    | none =>
      cases rem with
      | none => exact runs_retErr (.refl h) _ _
      | some _ =>
        refine Runs.ofExcept (.refl h) fun a _ => ?_
        cases a with
        | none => exact runs_retErr (.refl h) _ _
        | some x => exact runs_single (.refl h) _ _ _ _ _ _ _ _ _ _ _ _ _

theorem refines_regexp (m : Matcher τ β) : Refines (regexpFns m) (Reparsec.regexpFns m) := by
  refine ⟨fun s pos ctx h => ?_, fun s pos ctx ins rem h => ?_⟩
  · refine Runs.ofExcept (.refl h) fun a _ => ?_
    cases a with
    | some t => exact runs_retOkS (.refl h) _ _ _ _ _
    | none => exact runs_retErrS (.refl h) _ _
  · refine Runs.ofExcept (.refl h) fun a _ => ?_
    cases a with
    | some t => exact runs_retOk (.refl h) _ _ _ _ _
    | none =>
      cases rem with
      | none => exact runs_retErr (.refl h) _ _
      | some _ =>
        refine Runs.ofExcept (.refl h) fun a _ => ?_
        cases a with
        | none => exact runs_retErr (.refl h) _ _
        | some x => exact runs_single (.refl h) _ _ _ _ _ _ _ _ _ _ _ _ _

theorem runs_insertReps (h : Heap τ) (rem : Int) (v : α) (pos : Nat) (ctx : Ctx τ) (loc : Loc)
    (label : String) (ex : List String) :
    Runs h h (insertReps rem v pos ctx loc label ex)
      (.ret (if rem ≠ 0 then [Reparsec.makeInsert rem v pos ctx loc label ex] else []))
      (fun h l => l.map (HRepair.read h)) (fun h' rs => Ext h h' ∧ OwnReps h h' rs) := by
  unfold insertReps
  split
  · exact Runs.bind (g := fun w => .ret [w])
      (runs_oneOp (.refl h) 1 none (rem - 1) (.insert label) v pos ctx loc ex true)
      (fun x h' e hx => Runs.ret e rfl hx)
  · exact Runs.ret (.refl h) rfl ⟨.refl h, .nil _ _⟩

/-- The common part of `_sym` and `_literal`: an insertion and a skip. -/
theorem runs_insertSkip {σ : Type} (h : Heap τ) (ins rem : Int) (v : α) (pos : Nat) (ctx : Ctx τ)
    (loc : Loc) (label : String) (ex : List String) (sc : Except Exn (Option (Nat × σ)))
    (v' : σ → α) (q : Nat → Nat) (c : Nat → Ctx τ)
    (fh : List (HRepair α) → Option (Nat × σ) → HM τ (HResult α))
    (fo : List (Repair τ α) → Option (Nat × σ) → Out (Result τ α))
    (h1 : ∀ reps cur t, fh reps (some (cur, t))
      = makeSkip ins (v' t) (q cur) (c cur) loc (cur - pos) ex >>= fun x =>
          retRec (reps ++ [x]) (some (cur - pos)) loc ex)
    (h2 : ∀ reps, fh reps none = retRec reps none loc ex)
    (h3 : ∀ reps cur t, fo reps (some (cur, t)) = .ret (.recovered
      ⟨reps ++ [Reparsec.makeSkip ins (v' t) (q cur) (c cur) loc (cur - pos) ex],
        some (cur - pos), loc, ex, false⟩))
    (h4 : ∀ reps, fo reps none = .ret (.recovered ⟨reps, none, loc, ex, false⟩)) :
    Runs h h
      (insertReps rem v pos ctx loc label ex >>= fun reps => HM.ofExcept sc >>= fh reps)
      (Out.bind (Out.ofExcept sc)
        (fo (if rem ≠ 0 then [Reparsec.makeInsert rem v pos ctx loc label ex] else [])))
      HResult.read (OwnR h) := by
  refine Runs.bind (o := .ret _) (g := fun reps => Out.bind (Out.ofExcept sc) (fo reps))
    (runs_insertReps h rem v pos ctx loc label ex) ?_
  intro reps g1 e1 hreps
  refine Runs.ofExcept e1 fun a _ => ?_
  cases a with
  | none =>
    rw [h2, h4]
    exact runs_retRec e1 hreps.2 _ _ _
  | some x =>
    obtain ⟨cur, t⟩ := x
    rw [h1, h3]
    refine Runs.bind (o := .ret _) (g := fun w => .ret (Result.recovered
            ⟨reps.map (HRepair.read g1) ++ [w], some (cur - pos), loc, ex, false⟩))
      (runs_oneOp e1 (cur - pos) (some 0) ins (.skip (cur - pos)) (v' t) (q cur) (c cur) loc ex
        true) ?_
    intro x g2 e2 hx
    have := runs_retRec (e1.trans hx.1) (hreps.2.append hx.2 e1 hx.1) (some (cur - pos)) loc ex
    rw [List.map_append, readReps_ext hx.1 reps (fun x hx => (hreps.2.reps x hx).2)
      (fun x hx => (hreps.2.ops x hx).2)] at this
    exact this

theorem refines_sym [BEq τ] (s : τ) (l : String) :
    Refines (symFns s l) (Reparsec.symFns s l) := by
  refine ⟨fun st pos ctx h => ?_, fun st pos ctx ins rem h => ?_⟩
  · show Runs h h (match symAt s st pos with | some _ => _ | none => _)
      (match symAt s st pos with | some _ => _ | none => _) _ _
    cases symAt s st pos with
    | some t => exact runs_retOkS (.refl h) _ _ _ _ _
    | none => exact runs_retErrS (.refl h) _ _
  · show Runs h h (match symAt s st pos with | some _ => _ | none => _)
      (match symAt s st pos with | some _ => _ | none => _) _ _
    cases symAt s st pos with
    | some t => exact runs_retOk (.refl h) _ _ _ _ _
    | none =>
      cases rem with
      | none => exact runs_retErr (.refl h) _ _
      | some rem =>
        exact runs_insertSkip h ins rem s pos ctx (ctx.getLoc st pos) l [l]
          (scan (fun cur => .ok (symAt s st cur)) (st.length - (pos + 1)) (pos + 1)) id
          (fun cur => cur + 1) (fun cur => ctx.updateLoc st (cur + 1))
          (fun reps x => match x with
            | some (cur, t) => do
              let x ← makeSkip ins t (cur + 1) (ctx.updateLoc st (cur + 1)) (ctx.getLoc st pos)
                (cur - pos) [l]
              retRec (reps ++ [x]) (some (cur - pos)) (ctx.getLoc st pos) [l]
            | none => retRec reps none (ctx.getLoc st pos) [l])
          (fun reps x => match x with
            | some (cur, t) => .ret (.recovered
                ⟨reps ++ [Reparsec.makeSkip ins t (cur + 1) (ctx.updateLoc st (cur + 1))
                  (ctx.getLoc st pos) (cur - pos) [l]], some (cur - pos), ctx.getLoc st pos, [l],
                  false⟩)
            | none => .ret (.recovered ⟨reps, none, ctx.getLoc st pos, [l], false⟩))
          (fun _ _ _ => rfl) (fun _ => rfl) (fun _ _ _ => rfl) (fun _ => rfl)

theorem refines_literal [BEq τ] (s : List τ) (ss : String) :
    Refines (literalFns s ss) (Reparsec.literalFns s ss) := by
  refine ⟨fun st pos ctx h => ?_, fun st pos ctx ins rem h => ?_⟩
  · show Runs h h (if _ then _ else _) (if _ then _ else _) _ _
    split
    · exact runs_retOkS (.refl h) _ _ _ _ _
    · exact runs_retErrS (.refl h) _ _
  · show Runs h h (if _ then _ else _) (if _ then _ else _) _ _
    split
    · exact runs_retOk (.refl h) _ _ _ _ _
    · cases rem with
      | none => exact runs_retErr (.refl h) _ _
      | some rem =>
        exact runs_insertSkip h ins rem s pos ctx (ctx.getLoc st pos) ss [ss]
          (scan (fun cur => .ok (if startsWith s st cur then some () else none))
            (st.length - (pos + 1)) (pos + 1)) (fun _ => s)
          (fun cur => cur + s.length) (fun cur => ctx.updateLoc st (cur + s.length))
          (fun reps x => match x with
            | some (cur, _) => do
              let x ← makeSkip ins s (cur + s.length) (ctx.updateLoc st (cur + s.length))
                (ctx.getLoc st pos) (cur - pos) [ss]
              retRec (reps ++ [x]) (some (cur - pos)) (ctx.getLoc st pos) [ss]
            | none => retRec reps none (ctx.getLoc st pos) [ss])
          (fun reps x => match x with
            | some (cur, _) => .ret (.recovered
                ⟨reps ++ [Reparsec.makeSkip ins s (cur + s.length)
                  (ctx.updateLoc st (cur + s.length))
                  (ctx.getLoc st pos) (cur - pos) [ss]], some (cur - pos), ctx.getLoc st pos,
                  [ss], false⟩)
            | none => .ret (.recovered ⟨reps, none, ctx.getLoc st pos, [ss], false⟩))
          (fun _ _ _ => rfl) (fun _ => rfl) (fun _ _ _ => rfl) (fun _ => rfl)

/-! ### Combinators -/

section

variable {p : HFns τ α} {f : ParseFns τ α}

theorem Refines.fastCall (H : Refines p f) {h0 h : Heap τ} (e : Ext h0 h) (s : List τ)
    (pos : Nat) (ctx : Ctx τ) :
    Runs h0 h (p.fast s pos ctx) (f.fast s pos ctx) HSimple.read
      (fun h' a => Ext h h' ∧ OwnS h h' a) :=
  Runs.call (Own := OwnS) e (H.fast s pos ctx h)

theorem Refines.fnCall (H : Refines p f) {h0 h : Heap τ} (e : Ext h0 h) (s : List τ)
    (pos : Nat) (ctx : Ctx τ) (ins : Int) (rem : Option Int) :
    Runs h0 h (p.fn s pos ctx ins rem) (f.fn s pos ctx ins rem) HResult.read
      (fun h' a => Ext h h' ∧ OwnR h h' a) :=
  Runs.call (Own := OwnR) e (H.fn s pos ctx ins rem h)

theorem refines_fmap (H : Refines p f) (fn : α → Except Exn β) :
    Refines (fmapFns p fn) (Reparsec.fmapFns f fn) := by
  refine ⟨fun s pos ctx h => ?_, fun s pos ctx ins rem h => ?_⟩
  · exact Runs.bind (H.fast s pos ctx h) fun r h' e hr => runs_fmapMS e fn hr
  · exact Runs.bind (H.fn s pos ctx ins rem h) fun r h' e hr => runs_fmapM e fn hr

theorem refines_label (H : Refines p f) (x : String) :
    Refines (labelFns p x) (Reparsec.labelFns f x) := by
  refine ⟨fun s pos ctx h => ?_, fun s pos ctx ins rem h => ?_⟩
  · exact Runs.bind (H.fast s pos ctx h) fun r h' e hr => runs_setExpectedS e hr [x]
  · exact Runs.bind (H.fn s pos ctx ins rem h) fun r h' e hr => runs_setExpected e hr [x]

theorem refines_attempt (H : Refines p f) : Refines (attemptFns p) (Reparsec.attemptFns f) := by
  refine ⟨fun s pos ctx h => ?_, fun s pos ctx ins rem h => ?_⟩
  · refine Runs.bind (H.fast s pos ctx h) fun r h' e hr => ?_
    cases r with
    | ok r => exact Runs.ret (Own := OwnS h) e rfl hr
    | error r => exact Runs.get (runs_retErrS e _ _)
  · cases rem with
    | some rem => exact H.fn s pos ctx ins (some rem) h
    | none =>
      refine Runs.bind (H.fast s pos ctx h) fun r h' e hr => ?_
      cases r with
      | ok r => exact Runs.ret (Own := OwnR h) e rfl hr
      | error r => exact Runs.get (runs_retErr e _ _)

theorem refines_recover (H : Refines p f) : Refines (recoverFns p) (Reparsec.recoverFns f) := by
  refine ⟨H.fast, fun s pos ctx ins rem h => ?_⟩
  refine Runs.bind (H.fn s pos ctx ins rem h) fun r h' e hr => ?_
  cases r with
  | ok r => exact Runs.ret (Own := OwnR h) e rfl hr
  | error r => exact Runs.ret (Own := OwnR h) e rfl hr
  | recovered r =>
    refine Runs.modify ?_
    rw [promoteReps_eq _ _ hr.2.repsNodup]
    refine Runs.ret (Own := OwnR h) (ext_mapReps e fun a ha => ?_) ?_
      ⟨hr.1, hr.2.sameCounters rfl rfl⟩
    · obtain ⟨x, hx, rfl⟩ := List.mem_map.1 ha
      exact (hr.2.reps x hx).1
    · simp only [HResult.read, HRecovered.read]
      rw [readReps_mapReps (g' := Repair.promote) (fun _ _ _ _ _ _ => rfl)]
      rfl

theorem refines_block (H : Refines p f) : Refines (blockFns p) (Reparsec.blockFns f) := by
  refine ⟨fun s pos ctx h => ?_, fun s pos ctx ins rem h => ?_⟩
  · exact Runs.bind (H.fast s pos _ h) fun r h' e hr => runs_setCtxS e hr _
  · exact Runs.bind (H.fn s pos _ ins rem h) fun r h' e hr => runs_setCtx e hr _

theorem refines_aligned (H : Refines p f) : Refines (alignedFns p) (Reparsec.alignedFns f) := by
  refine ⟨fun s pos ctx h => ?_, fun s pos ctx ins rem h => ?_⟩
  · show Runs h h (if _ then _ else _) (if _ then _ else _) _ _
    split
    · exact H.fast _ _ _ _
    · exact runs_retErrS (.refl h) _ _
  · show Runs h h (if _ then _ else _) (if _ then _ else _) _ _
    split
    · exact H.fn _ _ _ _ _ _
    · exact runs_retErr (.refl h) _ _

theorem refines_indented (delta : Int) (H : Refines p f) :
    Refines (indentedFns delta p) (Reparsec.indentedFns delta f) := by
  refine ⟨fun s pos ctx h => ?_, fun s pos ctx ins rem h => ?_⟩
  · show Runs h h (if _ then _ else _) (if _ then _ else _) _ _
    split
    · exact Runs.bind (H.fast s pos _ h) fun r h' e hr => runs_setCtxS e hr _
    · exact runs_retErrS (.refl h) _ _
  · show Runs h h (if _ then _ else _) (if _ then _ else _) _ _
    split
    · exact Runs.bind (H.fn s pos _ ins rem h) fun r h' e hr => runs_setCtx e hr _
    · exact runs_retErr (.refl h) _ _

theorem read_asOption (h : Heap τ) (r : HRecovered α) :
    HResult.read h (.recovered r.asOption) = (Result.recovered (r.read h)).fmap some := by
  simp only [HResult.read, HRecovered.read, HRecovered.asOption, Result.fmap,
    List.map_map]
  rfl

theorem opAddrs_asOption (rs : List (HRepair α)) :
    opAddrs (rs.map HRepair.asOption) = opAddrs rs := by
  simp only [opAddrs, List.flatMap_map]
  rfl

theorem OwnReps.asOption {h0 h : Heap τ} {rs : List (HRepair α)} (o : OwnReps h0 h rs) :
    OwnReps h0 h (rs.map HRepair.asOption) where
  reps r hr := by
    obtain ⟨x, hx, rfl⟩ := List.mem_map.1 hr
    exact o.reps x hx
  ops a ha := by
    rw [opAddrs_asOption] at ha
    exact o.ops a ha
  repsNodup := by
    rw [List.map_map]
    exact o.repsNodup
  opsNodup := by
    rw [opAddrs_asOption]
    exact o.opsNodup

theorem refines_maybe (H : Refines p f) : Refines (maybeFns p) (Reparsec.maybeFns f) := by
  refine ⟨fun s pos ctx h => ?_, fun s pos ctx ins rem h => ?_⟩
  · refine Runs.bind (H.fast s pos ctx h) fun r h' e hr => ?_
    cases r with
    | ok r => exact Runs.ret (Own := OwnS h) e rfl hr
    | error r =>
      refine Runs.get ?_
      refine Runs.ite rfl (fun hc => ?_) (fun hc => ?_)
      · exact Runs.ret (Own := OwnS h) e rfl hr
      · exact runs_retOkS e _ _ _ _ _
  · refine Runs.bind (H.fn s pos ctx ins none h) fun r h' e hr => ?_
    cases r with
    | ok r => exact Runs.ret (Own := OwnR h) e rfl hr
    | error r =>
      refine Runs.get ?_
      refine Runs.ite rfl (fun hc => ?_) (fun hc => ?_)
      · exact Runs.ret (Own := OwnR h) e rfl hr
      · exact runs_retOk e _ _ _ _ _
    | recovered r =>
      refine Runs.get ?_
      refine Runs.ite rfl (fun hc => ?_) (fun hc => ?_)
      · exact Runs.ret (Own := OwnR h) e (congrArg Out.ret (read_asOption h' r).symm)
          ⟨hr.1, hr.2.asOption⟩
      · exact runs_retOk e _ _ _ _ _

theorem runs_manyFastLoop (H : Refines p f) (s : List τ) (fuel : Nat) (pos : Nat) (ctx : Ctx τ)
    (c : Bool) (vs : List α) {h0 h : Heap τ} (e0 : Ext h0 h) :
    Runs h0 h (manyFastLoop p.fast s fuel pos ctx c vs)
      (Reparsec.manyFastLoop f.fast s fuel pos ctx c vs) HSimple.read (OwnS h0) := by
  induction fuel generalizing pos ctx c vs h with
  | zero => exact Runs.diverge e0
  | succ fuel ih =>
    refine Runs.bind (H.fastCall e0 s pos ctx) fun r h' e hr => ?_
    cases r with
    | ok r =>
      refine Runs.get ?_
      refine Runs.ite rfl (fun hc => ?_) (fun hc => ?_)
      · exact ih _ _ _ _ e
      · exact Runs.raise e _
    | error r =>
      refine Runs.get ?_
      refine Runs.ite rfl (fun hc => ?_) (fun hc => ?_)
      · exact Runs.ret (Own := OwnS h0) e rfl (hr.2.base e0)
      · exact runs_retOkS e _ _ _ _ _

theorem runs_manyLoop (H : Refines p f) (s : List τ) (ins : Int) (fuel : Nat) (pos : Nat)
    (ctx : Ctx τ) (c : Bool) (vs : List α) {h0 h : Heap τ} (e0 : Ext h0 h) :
    Runs h0 h (manyLoop p.fn s ins fuel pos ctx c vs)
      (Reparsec.manyLoop f.fn s ins fuel pos ctx c vs) HResult.read (OwnR h0) := by
  induction fuel generalizing pos ctx c vs h0 h with
  | zero => exact Runs.diverge e0
  | succ fuel ih =>
    refine Runs.bind (H.fnCall e0 s pos ctx ins none) fun r h' e hr => ?_
    cases r with
    | ok r =>
      refine Runs.get ?_
      refine Runs.ite rfl (fun hc => ?_) (fun hc => ?_)
      · exact ih _ _ _ _ e
      · exact Runs.raise e _
    | error r =>
      refine Runs.get ?_
      refine Runs.ite rfl (fun hc => ?_) (fun hc => ?_)
      · exact Runs.ret (Own := OwnR h0) e rfl (hr.2.base e0)
      · exact runs_retOk e _ _ _ _ _
    | recovered r =>
      exact runs_continueParse e (hr.2.base e0) ins _ _ (fun _ p' c' _ h => ih p' c' _ _ (.refl h)) _

theorem refines_many (H : Refines p f) (fuel : Nat) :
    Refines (manyFns fuel p) (Reparsec.manyFns fuel f) :=
  ⟨fun s pos ctx h => runs_manyFastLoop H s fuel pos ctx false [] (.refl h),
   fun s pos ctx ins _ h => runs_manyLoop H s ins fuel pos ctx false [] (.refl h)⟩

theorem refines_bind (H : Refines p f) {k : α → HFns τ β} {k' : α → ParseFns τ β}
    (K : ∀ a, Refines (k a) (k' a)) : Refines (bindFns p k) (Reparsec.bindFns f k') := by
  refine ⟨fun s pos ctx h => ?_, fun s pos ctx ins rem h => ?_⟩
  · refine Runs.bind (H.fast s pos ctx h) fun r h' e hr => ?_
    cases r with
    | error r => exact Runs.ret (Own := OwnS h) e rfl hr
    | ok r =>
      refine Runs.get ?_
      refine Runs.bind ((K r.value).fastCall e s r.pos (h'.oks r.addr).ctx) fun rb h2 e2 hrb => ?_
      refine Runs.get ?_
      rw [hrb.1.oks _ hr.2]
      exact runs_prependExpectedS e2 (hrb.2.base e) _ _
  · refine Runs.bind (H.fn s pos ctx ins rem h) fun r h' e hr => ?_
    cases r with
    | error r => exact Runs.ret (Own := OwnR h) e rfl hr
    | recovered r =>
      exact runs_continueParse e hr ins _ _ (fun v p' c' r' h => (K v).fn s p' c' ins (some r') h) _
    | ok r =>
      refine Runs.get ?_
      refine Runs.ite rfl (fun hc => ?_) (fun hc => ?_)
      · refine Runs.bind ((K r.value).fnCall e s r.pos (h'.oks r.addr).ctx ins (some ins))
          fun rb h2 e2 hrb => ?_
        refine Runs.get ?_
        rw [hrb.1.oks _ hr.2]
        exact runs_prependExpected e2 (hrb.2.base e) _ _
      · refine Runs.bind ((K r.value).fnCall e s r.pos (h'.oks r.addr).ctx ins rem)
          fun rb h2 e2 hrb => ?_
        refine Runs.get ?_
        rw [hrb.1.oks _ hr.2]
        exact runs_prependExpected e2 (hrb.2.base e) _ _

theorem refines_seq (H : Refines p f) {q : HFns τ β} {g : ParseFns τ β} (G : Refines q g)
    (merge : α → β → γ) : Refines (seqFns p q merge) (Reparsec.seqFns f g merge) := by
  refine ⟨fun s pos ctx h => ?_, fun s pos ctx ins rem h => ?_⟩
  · refine Runs.bind (H.fast s pos ctx h) fun r h' e hr => ?_
    cases r with
    | error r => exact Runs.ret (Own := OwnS h) e rfl hr
    | ok r =>
      refine Runs.get ?_
      refine Runs.bind (G.fastCall e s r.pos (h'.oks r.addr).ctx) fun rb h2 e2 hrb => ?_
      have hm := runs_fmapMS (h0 := h') hrb.1 (fun vb => .ok (merge r.value vb)) hrb.2
      rw [Simple.fmapM_ok] at hm
      refine Runs.bind (o := .ret ((rb.read h2).fmap fun vb => merge r.value vb))
        (g := fun x => .ret (x.prependExpected (h'.oks r.addr).expected (h'.oks r.addr).consumed))
        (Own := fun h3 a => Ext h' h3 ∧ OwnS h' h3 a)
        ⟨e.trans hm.1, (hm.mono (Own' := fun h3 a => Ext h' h3 ∧ OwnS h' h3 a)
          fun a h3 he hw => ⟨he, hw⟩).2⟩ fun rc h3 e3 hrc => ?_
      refine Runs.get ?_
      rw [hrc.1.oks _ hr.2]
      exact runs_prependExpectedS e3 (hrc.2.base e) _ _
  · refine Runs.bind (H.fn s pos ctx ins rem h) fun r h' e hr => ?_
    cases r with
    | error r => exact Runs.ret (Own := OwnR h) e rfl hr
    | recovered r =>
      exact runs_continueParse e hr ins _ _ (fun v p' c' r' h => G.fn s p' c' ins (some r') h) _
    | ok r =>
      refine Runs.get ?_
      refine Runs.bind (G.fnCall e s r.pos (h'.oks r.addr).ctx ins _) fun rb h2 e2 hrb => ?_
      have hm := runs_fmapM (h0 := h') hrb.1 (fun vb => .ok (merge r.value vb)) hrb.2
      rw [Result.fmapM_ok] at hm
      refine Runs.bind (o := .ret ((rb.read h2).fmap fun vb => merge r.value vb))
        (g := fun x => .ret (x.prependExpected (h'.oks r.addr).expected (h'.oks r.addr).consumed))
        (Own := fun h3 a => Ext h' h3 ∧ OwnR h' h3 a)
        ⟨e.trans hm.1, (hm.mono (Own' := fun h3 a => Ext h' h3 ∧ OwnR h' h3 a)
          fun a h3 he hw => ⟨he, hw⟩).2⟩ fun rc h3 e3 hrc => ?_
      refine Runs.get ?_
      rw [hrc.1.oks _ hr.2]
      exact runs_prependExpected e3 (hrc.2.base e) _ _

theorem runs_altRecover (H : Refines p f) {q : HFns τ α} {g : ParseFns τ α} (G : Refines q g)
    {h0 h : Heap τ} (e : Ext h0 h) (s : List τ) (pos : Nat) (ctx : Ctx τ) (ins : Int)
    (rem : Option Int) (loc : Loc) (ex : List String) :
    Runs h0 h (altRecover p q s pos ctx ins rem loc ex)
      (Reparsec.altRecover f g s pos ctx ins rem loc ex) HResult.read (OwnR h0) := by
  cases rem with
  | none => exact runs_retErr e _ _
  | some rem =>
    refine Runs.bind (H.fnCall e s pos ctx ins (some rem)) fun ra h1 e1 hra => ?_
    refine Runs.bind (G.fnCall e1 s pos ctx ins (some rem)) fun rb h2 e2 hrb => ?_
    have hra' : OwnR h0 h1 ra := hra.2.base e
    have set : ∀ {r : HRecovered α}, OwnR h0 h2 (.recovered r) →
        Runs h0 h2 (r.setExpected ex >>= fun r => pure (.recovered r))
          (.ret (.recovered ((r.read h2).setExpected ex))) HResult.read (OwnR h0) := by
      intro r hr
      exact Runs.bind (o := .ret _) (g := fun w => .ret (Result.recovered w))
        (runs_recSetExpected e2 hr ex) (fun _ _ e hw => Runs.ret (Own := OwnR h0) e rfl hw)
    cases ra with
    | recovered ra =>
      cases rb with
      | recovered rb =>
        have hrd : HRecovered.read h2 ra = HRecovered.read h1 ra :=
          readRec_ext hrb.1 ra hra'.1.2 hra'.2
        refine Runs.bind (o := .ret _)
          (g := fun w => .ret (Result.recovered (w.setExpected ex)))
          (hrd ▸ runs_joinRepairs e1 hrb.1 hra' hrb.2) ?_
        intro r h3 e3 hr
        exact Runs.bind (o := .ret _) (g := fun w => .ret (Result.recovered w))
          (runs_recSetExpected e3 hr ex) (fun _ _ e hw => Runs.ret (Own := OwnR h0) e rfl hw)
      | ok rb =>
        have := set (hra'.ext hrb.1)
        rw [readRec_ext hrb.1 ra hra'.1.2 hra'.2] at this
        exact this
      | error rb =>
        have := set (hra'.ext hrb.1)
        rw [readRec_ext hrb.1 ra hra'.1.2 hra'.2] at this
        exact this
    | ok ra =>
      cases rb with
      | recovered rb => exact set (hrb.2.base e1)
      | ok rb => exact runs_retErr e2 _ _
      | error rb => exact runs_retErr e2 _ _
    | error ra =>
      cases rb with
      | recovered rb => exact set (hrb.2.base e1)
      | ok rb => exact runs_retErr e2 _ _
      | error rb => exact runs_retErr e2 _ _

theorem runs_okSetRet {h0 h : Heap τ} (e : Ext h0 h) {r : HOk α} (hr : OwnR h0 h (.ok r))
    (ex : List String) :
    Runs h0 h (r.setExpected ex >>= fun r => pure (HResult.ok r))
      (.ret (.ok ((r.read h).setExpected ex))) HResult.read (OwnR h0) :=
  runs_setExpected e hr ex

theorem runs_okSetRetS {h0 h : Heap τ} (e : Ext h0 h) {r : HOk α} (hr : OwnS h0 h (.ok r))
    (ex : List String) :
    Runs h0 h (r.setExpected ex >>= fun r => pure (HSimple.ok r))
      (.ret (.ok ((r.read h).setExpected ex))) HSimple.read (OwnS h0) :=
  runs_setExpectedS e hr ex

theorem runs_altSecond (H : Refines p f) {q : HFns τ α} {g : ParseFns τ α} (G : Refines q g)
    {h0 h : Heap τ} (e : Ext h0 h) (s : List τ) (pos : Nat) (ctx : Ctx τ) (ins : Int)
    (rem : Option Int) (loc : Loc) (addr : Nat) (ha : addr < h.nFails) :
    Runs h0 h (altSecond p q s pos ctx ins rem loc addr)
      (Reparsec.altSecond f g s pos ctx ins rem loc (h.fails addr).expected) HResult.read
      (OwnR h0) := by
  refine Runs.bind (G.fnCall e s pos ctx ins none) fun rb h1 e1 hrb => ?_
  rw [← hrb.1.fails _ ha]
  have hrb' : OwnR h0 h1 rb := hrb.2.base e
  cases rb with
  | ok rb =>
    refine Runs.get (Runs.ite rfl (fun hc => ?_) (fun hc => ?_))
    · exact Runs.ret (Own := OwnR h0) e1 rfl hrb'
    · exact runs_okSetRet e1 hrb' _
  | error rb =>
    refine Runs.get (Runs.ite rfl (fun hc => ?_) (fun hc => ?_))
    · exact Runs.ret (Own := OwnR h0) e1 rfl hrb'
    · exact runs_altRecover H G e1 _ _ _ _ _ _ _
  | recovered rb =>
    refine Runs.get (Runs.ite rfl (fun hc => ?_) (fun hc => ?_))
    · exact Runs.ret (Own := OwnR h0) e1 rfl hrb'
    · exact runs_altRecover H G e1 _ _ _ _ _ _ _

theorem refines_alt (H : Refines p f) {q : HFns τ α} {g : ParseFns τ α} (G : Refines q g) :
    Refines (altFns p q) (Reparsec.altFns f g) := by
  refine ⟨fun s pos ctx h => ?_, fun s pos ctx ins rem h => ?_⟩
  · refine Runs.bind (H.fast s pos ctx h) fun ra h1 e1 hra => ?_
    cases ra with
    | ok ra => exact Runs.ret (Own := OwnS h) e1 rfl hra
    | error ra =>
      refine Runs.get (Runs.ite rfl (fun hc => ?_) (fun hc => ?_))
      · exact Runs.ret (Own := OwnS h) e1 rfl hra
      · refine Runs.bind (G.fastCall e1 s pos ctx) fun rb h2 e2 hrb => ?_
        have hrd : HErr.read h1 ra = HErr.read h2 ra := (readErr_ext hrb.1 ra hra.2).symm
        rw [hrd]
        have hrb' : OwnS h h2 rb := hrb.2.base e1
        cases rb with
        | ok rb =>
          refine Runs.get (Runs.ite rfl (fun hc => ?_) (fun hc => ?_))
          · exact Runs.ret (Own := OwnS h) e2 rfl hrb'
          · exact runs_okSetRetS e2 hrb' _
        | error rb =>
          refine Runs.get (Runs.ite rfl (fun hc => ?_) (fun hc => ?_))
          · exact Runs.ret (Own := OwnS h) e2 rfl hrb'
          · exact runs_retErrS e2 _ _
  · refine Runs.bind (H.fn s pos ctx ins none h) fun ra h1 e1 hra => ?_
    cases ra with
    | ok ra => exact Runs.ret (Own := OwnR h) e1 rfl hra
    | error ra =>
      refine Runs.get (Runs.ite rfl (fun hc => ?_) (fun hc => ?_))
      · exact Runs.ret (Own := OwnR h) e1 rfl hra
      · exact runs_altSecond H G e1 _ _ _ _ _ _ _ hra.2
    | recovered ra =>
      refine Runs.get (Runs.ite rfl (fun hc => ?_) (fun hc => ?_))
      · exact Runs.ret (Own := OwnR h) e1 rfl hra
      · exact runs_altSecond H G e1 _ _ _ _ _ _ _ hra.1.2

/-- `recover_with` around repairs that are there already. -/
theorem runs_addUser {h0 h : Heap τ} (e : Ext h0 h) {r : HRecovered α}
    (hr : OwnR h0 h (.recovered r)) (rem : Int) (x : α) (pos : Nat) (ctx : Ctx τ) (loc : Loc)
    (vs : String) :
    Runs h0 h
      (makeUserInsert rem x pos ctx loc vs (h.fails r.addr).expected >>= fun rep =>
        HM.get >>= fun h => retRec (rep :: r.repairs) r.minPrio loc (h.fails r.addr).expected)
      (.ret (.recovered
        { repairs := Reparsec.makeUserInsert rem x pos ctx loc vs (r.read h).expected
            :: (r.read h).repairs,
          minPrio := r.minPrio, loc := loc, expected := (r.read h).expected }))
      HResult.read (OwnR h0) := by
  refine Runs.bind (o := .ret _)
    (g := fun w => .ret (Result.recovered ⟨w :: (r.read h).repairs, r.minPrio, loc,
      (r.read h).expected, false⟩))
    (runs_oneOp e 1 (some 0) (rem - 1) (.insert vs) x pos ctx loc (h.fails r.addr).expected true)
    ?_
  intro rep h1 e1 hrep
  refine Runs.get ?_
  rw [hrep.1.fails _ hr.1.2]
  have := runs_retRec e1 (hr.2.append' hrep.2 e hrep.1) r.minPrio loc (h.fails r.addr).expected
  rw [List.map_append, readReps_ext hrep.1 r.repairs (fun x hx => (hr.2.reps x hx).2)
      (fun x hx => (hr.2.ops x hx).2)] at this
  exact this

theorem refines_recoverWith (H : Refines p f) (x : α) (vs : String) :
    Refines (recoverWithFns p x vs) (Reparsec.recoverWithFns f x vs) := by
  refine ⟨H.fast, fun s pos ctx ins rem h => ?_⟩
  cases rem with
  | none => exact H.fn s pos ctx ins none h
  | some rem =>
    refine Runs.bind (H.fn s pos ctx ins (some rem) h) fun r h1 e hr => ?_
    cases r with
    | ok r => exact Runs.ret (Own := OwnR h) e rfl hr
    | error r =>
      refine Runs.get (Runs.ite rfl (fun hc => ?_) (fun hc => ?_))
      · exact Runs.ret (Own := OwnR h) e rfl hr
      · split
        · exact runs_single e _ _ _ _ _ _ _ _ _ _ _ _ _
        · exact Runs.ret (Own := OwnR h) e rfl hr
    | recovered r =>
      refine Runs.get (Runs.ite rfl (fun hc => ?_) (fun hc => ?_))
      · exact Runs.ret (Own := OwnR h) e rfl hr
      · split
        · exact runs_addUser e hr rem x pos ctx _ vs
        · exact Runs.ret (Own := OwnR h) e rfl hr

theorem refines_recoverWithFn (H : Refines p f) (fn : List τ → Nat → Except Exn α)
    (lbl : α → String) :
    Refines (recoverWithFnFns p fn lbl) (Reparsec.recoverWithFnFns f fn lbl) := by
  refine ⟨H.fast, fun s pos ctx ins rem h => ?_⟩
  cases rem with
  | none => exact H.fn s pos ctx ins none h
  | some rem =>
    refine Runs.bind (H.fn s pos ctx ins (some rem) h) fun r h1 e hr => ?_
    cases r with
    | ok r => exact Runs.ret (Own := OwnR h) e rfl hr
    | error r =>
      refine Runs.get (Runs.ite rfl (fun hc => ?_) (fun hc => ?_))
      · exact Runs.ret (Own := OwnR h) e rfl hr
      · split
        · refine Runs.ofExcept e fun x _ => Runs.get ?_
          exact runs_single e _ _ _ _ _ _ _ _ _ _ _ _ _
        · exact Runs.ret (Own := OwnR h) e rfl hr
    | recovered r =>
      refine Runs.get (Runs.ite rfl (fun hc => ?_) (fun hc => ?_))
      · exact Runs.ret (Own := OwnR h) e rfl hr
      · split
        · refine Runs.ofExcept e fun x _ => Runs.get ?_
          exact runs_addUser e hr rem x pos ctx _ (lbl x)
        · exact Runs.ret (Own := OwnR h) e rfl hr

end

/-! ### Parser objects -/

variable {ρ : Type} {Γ : ρ → Type}

theorem refines_denoteWith [BEq τ] (fuel : Nat) {tbl : (i : ρ) → HFns τ (Γ i)}
    {tbl' : (i : ρ) → ParseFns τ (Γ i)} (ht : ∀ i, Refines (tbl i) (tbl' i)) (p : P τ ρ Γ α) :
    Refines (denoteWith fuel tbl p) (Reparsec.denoteWith fuel tbl' p) := by
  induction p with
  | pure x => exact refines_pure x
  | pureFn x => exact refines_pureFn x
  | unexpected x => exact refines_unexpected x
  | eof => exact refines_eof
  | satisfy test => exact refines_satisfy test
  | sym s l => exact refines_sym s l
  | literal s ss h => exact refines_literal s ss
  | regexp m => exact refines_regexp m
  | fmap p fn ih => exact refines_fmap ih fn
  | alt p q ihp ihq => exact refines_alt ihp ihq
  | bind p k ihp ihk => exact refines_bind ihp ihk
  | seqWith p q merge ihp ihq => exact refines_seq ihp ihq merge
  | maybe p ih => exact refines_maybe ih
  | many p ih => exact refines_many ih fuel
  | attempt p ih => exact refines_attempt ih
  | label p x ih => exact refines_label ih x
  | recover p ih => exact refines_recover ih
  | recoverWith p x vs ih => exact refines_recoverWith ih x vs
  | recoverWithFn p fn lbl ih => exact refines_recoverWithFn ih fn lbl
  | block p ih => exact refines_block ih
  | aligned p ih => exact refines_aligned ih
  | indented delta p ih => exact refines_indented delta ih
  | ref i => exact ht i

theorem refines_table [BEq τ] (env : Env τ ρ Γ) (fuel : Nat) (i : ρ) :
    Refines (table env fuel i) (Reparsec.table env fuel i) := by
  induction fuel generalizing i with
  | zero => exact ⟨fun _ _ _ h => Runs.diverge (.refl h), fun _ _ _ _ _ h => Runs.diverge (.refl h)⟩
  | succ n ih =>
    unfold table Reparsec.table
    cases env i with
    | none =>
      exact ⟨fun _ _ _ h => Runs.raise (.refl h) _, fun _ _ _ _ _ h => Runs.raise (.refl h) _⟩
    | some p => exact refines_denoteWith n ih p

theorem refines_denote [BEq τ] (env : Env τ ρ Γ) (fuel : Nat) (p : P τ ρ Γ α) :
    Refines (denote env fuel p) (Reparsec.denote env fuel p) :=
  refines_denoteWith fuel (refines_table env fuel) p

/-- A parse in any heap. -/
theorem runs_parse [BEq τ] (env : Env τ ρ Γ) (fuel : Nat) (p : P τ ρ Γ α) (stream : List τ)
    (recover : Bool) (b : Int) (gl : Loc → List τ → Nat → Loc) (h : Heap τ) :
    Runs h h (parse env fuel p stream recover b gl) (Reparsec.parse env fuel p stream recover b gl)
      HResult.read (OwnR h) := by
  cases recover with
  | true => exact (refines_denote env fuel p).fn _ _ _ _ _ h
  | false =>
    refine Runs.bind ((refines_denote env fuel p).fast stream 0 _ h) fun r h' e hr => ?_
    cases r with
    | ok r => exact Runs.ret (Own := OwnR h) e rfl hr
    | error r => exact Runs.ret (Own := OwnR h) e rfl hr

end Reparsec.Heaped
