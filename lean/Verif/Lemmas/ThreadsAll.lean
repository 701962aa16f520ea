import Verif.Lemmas.ThreadsRefine

/-!
# Each parser, one step at a time, does what the model with one heap does
-/

namespace Reparsec.Thr

open Heaped (OpCell RepCell OkCell FailCell HOp HRepair HOk HErr HRecovered HSimple HResult Heap HM upd
  HFns)

variable {τ α β γ : Type}

/-- The two functions of a parser do the same in both models. -/
structure SimFns (T : TFns τ α) (H : HFns τ α) : Prop where
  fast : ∀ s pos ctx, SimS (T.fast s pos ctx) (H.fast s pos ctx)
  fn : ∀ s pos ctx ins rem, SimR (T.fn s pos ctx ins rem) (H.fn s pos ctx ins rem)

theorem simFns_pure (x : α) : SimFns (τ := τ) (pureFns x) (Heaped.pureFns x) :=
  ⟨fun _ _ _ _ _ _ hM => sim_retOkS hM _ _ _ _ _, fun _ _ _ _ _ _ _ _ hM => sim_retOk hM _ _ _ _ _⟩

theorem simFns_pureFn (x : Except Exn α) : SimFns (τ := τ) (pureFnFns x) (Heaped.pureFnFns x) := by
  constructor
  · intro s pos ctx m h g hM
    refine Sim.bind (.ofExcept hM x) ?_
    rintro m1 g1 h1 v _ _ hM1 rfl
    exact sim_retOkS hM1 _ _ _ _ _
  · intro s pos ctx ins rem m h g hM
    refine Sim.bind (.ofExcept hM x) ?_
    rintro m1 g1 h1 v _ _ hM1 rfl
    exact sim_retOk hM1 _ _ _ _ _

theorem simFns_unexpected (x : String) :
    SimFns (τ := τ) (unexpectedFns x) (Heaped.unexpectedFns x) :=
  ⟨fun _ _ _ _ _ _ hM => sim_retErrS hM _ _, fun _ _ _ _ _ _ _ _ hM => sim_retErr hM _ _⟩

theorem simFns_eof : SimFns (τ := τ) eofFns Heaped.eofFns := by
  constructor
  · intro s pos ctx m h g hM
    simp only [eofFns, Heaped.eofFns]
    split
    · exact sim_retOkS hM _ _ _ _ _
    · exact sim_retErrS hM _ _
  · intro s pos ctx ins rem m h g hM
    simp only [eofFns, Heaped.eofFns]
    split
    · exact sim_retOk hM _ _ _ _ _
    · cases rem with
      | none => exact sim_retErr hM _ _
      | some _ =>
        exact Sim.bind (sim_makePendingSkip hM _ _ _ _ _ _ _) fun m1 g1 h1 a b _ hM1 hab =>
          sim_retRec hM1 (.cons hab .nil) _ _ _

theorem simFns_satisfy (test : τ → Except Exn Bool) :
    SimFns (satisfyFns test) (Heaped.satisfyFns test) := by
  constructor
  · intro s pos ctx m h g hM
    refine Sim.bind (.ofExcept hM _) ?_
    rintro m1 g1 h1 v _ _ hM1 rfl
    cases v with
    | some t => exact sim_retOkS hM1 _ _ _ _ _
    | none => exact sim_retErrS hM1 _ _
  · intro s pos ctx ins rem m h g hM
    refine Sim.bind (.ofExcept hM _) ?_
    rintro m1 g1 h1 v _ _ hM1 rfl
    cases v with
    | some t => exact sim_retOk hM1 _ _ _ _ _
    | none =>
      cases rem with
      | none => exact sim_retErr hM1 _ _
      | some _ =>
        refine Sim.bind (.ofExcept hM1 _) ?_
        rintro m2 g2 h2 v _ _ hM2 rfl
        rcases v with _ | ⟨cur, t⟩
        · exact sim_retErr hM2 _ _
        · exact Sim.bind (sim_makeSkip hM2 _ _ _ _ _ _ _) fun m1 g1 h1 a b _ hM1 hab =>
            sim_retRec hM1 (.cons hab .nil) _ _ _

theorem simFns_sym [BEq τ] (x : τ) (l : String) : SimFns (symFns x l) (Heaped.symFns x l) := by
  constructor
  · intro s pos ctx m h g hM
    simp only [symFns, Heaped.symFns]
    cases symAt x s pos with
    | some t => exact sim_retOkS hM _ _ _ _ _
    | none => exact sim_retErrS hM _ _
  · intro s pos ctx ins rem m h g hM
    simp only [symFns, Heaped.symFns]
    cases symAt x s pos with
    | some t => exact sim_retOk hM _ _ _ _ _
    | none =>
      cases rem with
      | none => exact sim_retErr hM _ _
      | some rem =>
        refine Sim.bind (sim_insertReps hM _ _ _ _ _ _ _) fun m1 g1 h1 a b _ hM1 hab => ?_
        refine Sim.bind (.ofExcept hM1 _) ?_
        rintro m2 g2 h2 v _ hm2 hM2 rfl
        have hab := RReps.mono hm2 hab
        rcases v with _ | ⟨cur, t⟩
        · exact sim_retRec hM2 hab _ _ _
        · refine Sim.bind (sim_makeSkip hM2 _ _ _ _ _ _ _) fun m1 g1 h1 a b hm hM1 hab' => ?_
          exact sim_retRec hM1 ((RReps.mono hm hab).append (.cons hab' .nil)) _ _ _

theorem simFns_literal [BEq τ] (x : List τ) (l : String) :
    SimFns (literalFns x l) (Heaped.literalFns x l) := by
  constructor
  · intro s pos ctx m h g hM
    simp only [literalFns, Heaped.literalFns]
    cases startsWith x s pos with
    | true => exact sim_retOkS hM _ _ _ _ _
    | false => exact sim_retErrS hM _ _
  · intro s pos ctx ins rem m h g hM
    simp only [literalFns, Heaped.literalFns]
    cases startsWith x s pos with
    | true => exact sim_retOk hM _ _ _ _ _
    | false =>
      cases rem with
      | none => exact sim_retErr hM _ _
      | some rem =>
        refine Sim.bind (sim_insertReps hM _ _ _ _ _ _ _) fun m1 g1 h1 a b _ hM1 hab => ?_
        refine Sim.bind (.ofExcept hM1 _) ?_
        rintro m2 g2 h2 v _ hm2 hM2 rfl
        have hab := RReps.mono hm2 hab
        rcases v with _ | ⟨cur, t⟩
        · exact sim_retRec hM2 hab _ _ _
        · refine Sim.bind (sim_makeSkip hM2 _ _ _ _ _ _ _) fun m1 g1 h1 a b hm hM1 hab' => ?_
          exact sim_retRec hM1 ((RReps.mono hm hab).append (.cons hab' .nil)) _ _ _

theorem simFns_regexp (x : Matcher τ β) : SimFns (regexpFns x) (Heaped.regexpFns x) := by
  constructor
  · intro s pos ctx m h g hM
    refine Sim.bind (.ofExcept hM _) ?_
    rintro m1 g1 h1 v _ _ hM1 rfl
    rcases v with _ | ⟨e, t⟩
    · exact sim_retErrS hM1 _ _
    · exact sim_retOkS hM1 _ _ _ _ _
  · intro s pos ctx ins rem m h g hM
    refine Sim.bind (.ofExcept hM _) ?_
    rintro m1 g1 h1 v _ _ hM1 rfl
    rcases v with _ | ⟨e, t⟩
    · cases rem with
      | none => exact sim_retErr hM1 _ _
      | some _ =>
        refine Sim.bind (.ofExcept hM1 _) ?_
        rintro m2 g2 h2 v _ _ hM2 rfl
        rcases v with _ | ⟨cur, t⟩
        · exact sim_retErr hM2 _ _
        · exact Sim.bind (sim_makeSkip hM2 _ _ _ _ _ _ _) fun m1 g1 h1 a b _ hM1 hab =>
            sim_retRec hM1 (.cons hab .nil) _ _ _
    · exact sim_retOk hM1 _ _ _ _ _

theorem simFns_fmap {T : TFns τ α} {H : HFns τ α} (hp : SimFns T H) (fn : α → Except Exn β) :
    SimFns (fmapFns T fn) (Heaped.fmapFns H fn) :=
  ⟨fun _ _ _ _ _ _ hM => Sim.bind (hp.fast _ _ _ hM) fun _ _ _ _ _ _ hM hab =>
      sim_simpleFmap hM fn hab,
    fun _ _ _ _ _ _ _ _ hM => Sim.bind (hp.fn _ _ _ _ _ hM) fun _ _ _ _ _ _ hM hab =>
      sim_resultFmap hM fn hab⟩

theorem sim_altFast {T U : TFns τ α} {H K : HFns τ α} (hp : SimFns T H) (hq : SimFns U K)
    (s : List τ) (pos : Nat) (ctx : Ctx τ) :
    SimS (altFast T U s pos ctx) (Heaped.altFast H K s pos ctx) := by
  intro m h g hM
  unfold altFast Heaped.altFast
  refine Sim.bind (hp.fast _ _ _ hM) fun m1 g1 h1 a b hm1 hM1 hab => ?_
  cases hab with
  | ok hr => exact .ret hM1 (.ok hr)
  | error hr =>
    obtain ⟨hn⟩ := hr
    refine .hget (.failConsumed hM1 hn ?_)
    dsimp only
    split
    · exact .ret hM1 (.error (.mk hn))
    · refine Sim.bind (hq.fast _ _ _ hM1) fun m2 g2 h2 a b hm2 hM2 hab => ?_
      have hn := hm2 _ _ _ hn
      cases hab with
      | ok hr =>
        have hr' := hr
        obtain ⟨hn'⟩ := hr
        refine .hget (.okConsumed hM2 hn' ?_)
        dsimp only
        split
        · exact .ret hM2 (.ok hr')
        · refine .failExpected hM2 hn (.okExpected hM2 hn' ?_)
          exact Sim.bind (sim_okSetExpected hM2 _ hr') fun _ _ _ _ _ _ hM hab =>
            .ret hM (.ok hab)
      | error hr =>
        obtain ⟨hn'⟩ := hr
        refine .hget (.failConsumed hM2 hn' ?_)
        dsimp only
        split
        · exact .ret hM2 (.error (.mk hn'))
        · exact .failExpected hM2 hn (.failExpected hM2 hn' (sim_retErrS hM2 _ _))

theorem sim_altRecover {T U : TFns τ α} {H K : HFns τ α} (hp : SimFns T H) (hq : SimFns U K)
    (s : List τ) (pos : Nat) (ctx : Ctx τ) (ins : Int) (rem : Option Int) (loc : Loc)
    (e : List String) :
    SimR (altRecover T U s pos ctx ins rem loc e) (Heaped.altRecover H K s pos ctx ins rem loc e) := by
  intro m h g hM
  unfold altRecover Heaped.altRecover
  cases rem with
  | none => exact sim_retErr hM _ _
  | some rem =>
    refine Sim.bind (hp.fn _ _ _ _ _ hM) fun m1 g1 h1 a b hm1 hM1 hab => ?_
    refine Sim.bind (hq.fn _ _ _ _ _ hM1) fun m2 g2 h2 a' b' hm2 hM2 hab' => ?_
    have hab := hab.mono hm2
    cases hab with
    | recovered hr =>
      cases hab' with
      | recovered hr' =>
        refine Sim.bind (sim_joinRepairs hM2 hr hr') fun m3 g3 h3 a b hm3 hM3 hab => ?_
        exact Sim.bind (sim_recoveredSetExpected hM3 _ hab) fun _ _ _ _ _ _ hM hab =>
          .ret hM (.recovered hab)
      | ok _ =>
        exact Sim.bind (sim_recoveredSetExpected hM2 _ hr) fun _ _ _ _ _ _ hM hab =>
          .ret hM (.recovered hab)
      | error _ =>
        exact Sim.bind (sim_recoveredSetExpected hM2 _ hr) fun _ _ _ _ _ _ hM hab =>
          .ret hM (.recovered hab)
    | ok hr =>
      cases hab' with
      | recovered hr' =>
        exact Sim.bind (sim_recoveredSetExpected hM2 _ hr') fun _ _ _ _ _ _ hM hab =>
          .ret hM (.recovered hab)
      | ok _ => exact sim_retErr hM2 _ _
      | error _ => exact sim_retErr hM2 _ _
    | error hr =>
      cases hab' with
      | recovered hr' =>
        exact Sim.bind (sim_recoveredSetExpected hM2 _ hr') fun _ _ _ _ _ _ hM hab =>
          .ret hM (.recovered hab)
      | ok _ => exact sim_retErr hM2 _ _
      | error _ => exact sim_retErr hM2 _ _

theorem sim_altSecond {T U : TFns τ α} {H K : HFns τ α} (hp : SimFns T H) (hq : SimFns U K)
    (s : List τ) (pos : Nat) (ctx : Ctx τ) (ins : Int) (rem : Option Int) (loc : Loc)
    {n a : Nat} {m : AddrMap} (hn : m .fail n = some a) {h : Heap τ} {g : Store τ}
    (hM : Match m h g) :
    Sim RResult m g (altSecond T U s pos ctx ins rem loc a)
      (Heaped.altSecond H K s pos ctx ins rem loc n h) := by
  unfold altSecond Heaped.altSecond
  refine Sim.bind (hq.fn _ _ _ _ _ hM) fun m2 g2 h2 a b hm2 hM2 hab => ?_
  have hn := hm2 _ _ _ hn
  cases hab with
  | ok hr =>
    have hr' := hr
    obtain ⟨hn'⟩ := hr
    refine .hget (.okConsumed hM2 hn' ?_)
    dsimp only
    split
    · exact .ret hM2 (.ok hr')
    · refine .failExpected hM2 hn (.okExpected hM2 hn' ?_)
      exact Sim.bind (sim_okSetExpected hM2 _ hr') fun _ _ _ _ _ _ hM hab =>
        .ret hM (.ok hab)
  | error hr =>
    obtain ⟨hn'⟩ := hr
    refine .hget (.failConsumed hM2 hn' ?_)
    dsimp only
    split
    · exact .ret hM2 (.error (.mk hn'))
    · exact .failExpected hM2 hn (.failExpected hM2 hn' (sim_altRecover hp hq _ _ _ _ _ _ _ hM2))
  | recovered hr =>
    have hr' := hr
    obtain ⟨hn', _⟩ := hr
    refine .hget (.failConsumed hM2 hn' ?_)
    dsimp only
    split
    · exact .ret hM2 (.recovered hr')
    · exact .failExpected hM2 hn (.failExpected hM2 hn' (sim_altRecover hp hq _ _ _ _ _ _ _ hM2))

theorem simFns_alt {T U : TFns τ α} {H K : HFns τ α} (hp : SimFns T H) (hq : SimFns U K) :
    SimFns (altFns T U) (Heaped.altFns H K) := by
  refine ⟨sim_altFast hp hq, ?_⟩
  intro s pos ctx ins rem m h g hM
  simp only [altFns, Heaped.altFns]
  unfold altFn Heaped.altFn
  refine Sim.bind (hp.fn _ _ _ _ _ hM) fun m1 g1 h1 a b hm1 hM1 hab => ?_
  cases hab with
  | ok hr => exact .ret hM1 (.ok hr)
  | error hr =>
    have hr' := hr
    obtain ⟨hn⟩ := hr
    refine .hget (.failConsumed hM1 hn ?_)
    dsimp only
    split
    · exact .ret hM1 (.error hr')
    · exact sim_altSecond hp hq _ _ _ _ _ _ hn hM1
  | recovered hr =>
    have hr' := hr
    obtain ⟨hn, _⟩ := hr
    refine .hget (.failConsumed hM1 hn ?_)
    dsimp only
    split
    · exact .ret hM1 (.recovered hr')
    · exact sim_altSecond hp hq _ _ _ _ _ _ hn hM1

theorem simFns_bind {T : TFns τ α} {H : HFns τ α} (hp : SimFns T H) {U : α → TFns τ β}
    {K : α → HFns τ β} (hq : ∀ a, SimFns (U a) (K a)) :
    SimFns (bindFns T U) (Heaped.bindFns H K) := by
  constructor
  · intro s pos ctx m h g hM
    simp only [bindFns, Heaped.bindFns]
    unfold bindFast Heaped.bindFast
    refine Sim.bind (hp.fast _ _ _ hM) fun m1 g1 h1 a b hm1 hM1 hab => ?_
    cases hab with
    | error hr => exact .ret hM1 (.error hr)
    | ok hr =>
      obtain ⟨hn⟩ := hr
      refine .hget (.okCtx hM1 hn ?_)
      refine Sim.bind ((hq _).fast _ _ _ hM1) fun m2 g2 h2 a b hm2 hM2 hab => ?_
      have hn := hm2 _ _ _ hn
      exact .hget (.okExpected hM2 hn (.okConsumed hM2 hn (sim_simplePrependExpected hM2 _ _ hab)))
  · intro s pos ctx ins rem m h g hM
    simp only [bindFns, Heaped.bindFns]
    unfold bindFn Heaped.bindFn
    refine Sim.bind (hp.fn _ _ _ _ _ hM) fun m1 g1 h1 a b hm1 hM1 hab => ?_
    cases hab with
    | error hr => exact .ret hM1 (.error hr)
    | recovered hr => exact sim_continueParse hM1 hr _ (fun v p c r => (hq v).fn _ _ _ _ _) _
    | ok hr =>
      obtain ⟨hn⟩ := hr
      refine .hget (.okConsumed hM1 hn ?_)
      dsimp only
      split
      · refine .okCtx hM1 hn ?_
        refine Sim.bind ((hq _).fn _ _ _ _ _ hM1) fun m2 g2 h2 a b hm2 hM2 hab => ?_
        have hn := hm2 _ _ _ hn
        exact .hget (.okExpected hM2 hn (.okConsumed hM2 hn (sim_resultPrependExpected hM2 _ _ hab)))
      · refine .okCtx hM1 hn ?_
        refine Sim.bind ((hq _).fn _ _ _ _ _ hM1) fun m2 g2 h2 a b hm2 hM2 hab => ?_
        have hn := hm2 _ _ _ hn
        exact .hget (.okExpected hM2 hn (.okConsumed hM2 hn (sim_resultPrependExpected hM2 _ _ hab)))

theorem simFns_seq {T : TFns τ α} {H : HFns τ α} (hp : SimFns T H) {U : TFns τ β}
    {K : HFns τ β} (hq : SimFns U K) (merge : α → β → γ) :
    SimFns (seqFns T U merge) (Heaped.seqFns H K merge) := by
  constructor
  · intro s pos ctx m h g hM
    simp only [seqFns, Heaped.seqFns]
    unfold seqFast Heaped.seqFast
    refine Sim.bind (hp.fast _ _ _ hM) fun m1 g1 h1 a b hm1 hM1 hab => ?_
    cases hab with
    | error hr => exact .ret hM1 (.error hr)
    | ok hr =>
      obtain ⟨hn⟩ := hr
      refine .hget (.okCtx hM1 hn ?_)
      refine Sim.bind (hq.fast _ _ _ hM1) fun m2 g2 h2 a b hm2 hM2 hab => ?_
      refine Sim.bind (sim_simpleFmap hM2 _ hab) fun m3 g3 h3 a b hm3 hM3 hab => ?_
      have hn := (hm2.trans hm3) _ _ _ hn
      exact .hget (.okExpected hM3 hn (.okConsumed hM3 hn (sim_simplePrependExpected hM3 _ _ hab)))
  · intro s pos ctx ins rem m h g hM
    simp only [seqFns, Heaped.seqFns]
    unfold seqFn Heaped.seqFn
    refine Sim.bind (hp.fn _ _ _ _ _ hM) fun m1 g1 h1 a b hm1 hM1 hab => ?_
    cases hab with
    | error hr => exact .ret hM1 (.error hr)
    | recovered hr => exact sim_continueParse hM1 hr _ (fun v p c r => hq.fn _ _ _ _ _) _
    | ok hr =>
      obtain ⟨hn⟩ := hr
      refine .hget (.okCtx hM1 hn (.okConsumed hM1 hn ?_))
      refine Sim.bind (hq.fn _ _ _ _ _ hM1) fun m2 g2 h2 a b hm2 hM2 hab => ?_
      refine Sim.bind (sim_resultFmap hM2 _ hab) fun m3 g3 h3 a b hm3 hM3 hab => ?_
      have hn := (hm2.trans hm3) _ _ _ hn
      exact .hget (.okExpected hM3 hn (.okConsumed hM3 hn (sim_resultPrependExpected hM3 _ _ hab)))

theorem ROk.asOption {m : AddrMap} {x y : HOk α} (h : ROk m x y) : ROk m x.asOption y.asOption := by
  obtain ⟨hn⟩ := h; exact .mk hn

theorem RRec.asOption {m : AddrMap} {x y : HRecovered α} (h : RRec m x y) :
    RRec m x.asOption y.asOption := by
  obtain ⟨hn, hreps⟩ := h
  refine .mk hn ?_
  induction hreps with
  | nil => exact .nil
  | cons hxy _ ih =>
    obtain ⟨hn, ho⟩ := hxy
    exact .cons (.mk hn ho) ih

theorem simFns_maybe {T : TFns τ α} {H : HFns τ α} (hp : SimFns T H) :
    SimFns (maybeFns T) (Heaped.maybeFns H) := by
  constructor
  · intro s pos ctx m h g hM
    simp only [maybeFns, Heaped.maybeFns]
    refine Sim.bind (hp.fast _ _ _ hM) fun m1 g1 h1 a b hm1 hM1 hab => ?_
    cases hab with
    | ok hr => exact .ret hM1 (.ok hr.asOption)
    | error hr =>
      have hr' := hr
      obtain ⟨hn⟩ := hr
      refine .hget (.failConsumed hM1 hn ?_)
      dsimp only
      split
      · exact .ret hM1 (.error hr')
      · exact .failExpected hM1 hn (sim_retOkS hM1 _ _ _ _ _)
  · intro s pos ctx ins rem m h g hM
    simp only [maybeFns, Heaped.maybeFns]
    refine Sim.bind (hp.fn _ _ _ _ _ hM) fun m1 g1 h1 a b hm1 hM1 hab => ?_
    cases hab with
    | ok hr => exact .ret hM1 (.ok hr.asOption)
    | error hr =>
      have hr' := hr
      obtain ⟨hn⟩ := hr
      refine .hget (.failConsumed hM1 hn ?_)
      dsimp only
      split
      · exact .ret hM1 (.error hr')
      · exact .failExpected hM1 hn (sim_retOk hM1 _ _ _ _ _)
    | recovered hr =>
      have hr' := hr
      obtain ⟨hn, _⟩ := hr
      refine .hget (.failConsumed hM1 hn ?_)
      dsimp only
      split
      · exact .ret hM1 (.recovered hr'.asOption)
      · exact .failExpected hM1 hn (sim_retOk hM1 _ _ _ _ _)

theorem sim_manyFastLoop {T : TFns τ α} {H : HFns τ α} (hp : SimFns T H) (s : List τ) (fuel : Nat)
    (pos : Nat) (ctx : Ctx τ) (b : Bool) (vs : List α) :
    SimS (manyFastLoop T.fast s fuel pos ctx b vs) (Heaped.manyFastLoop H.fast s fuel pos ctx b vs) := by
  induction fuel generalizing pos ctx b vs with
  | zero => intro m h g hM; exact .diverge hM
  | succ fuel ih =>
    intro m h g hM
    unfold manyFastLoop Heaped.manyFastLoop
    refine Sim.bind (hp.fast _ _ _ hM) fun m1 g1 h1 a b hm1 hM1 hab => ?_
    cases hab with
    | ok hr =>
      obtain ⟨hn⟩ := hr
      refine .hget (.okConsumed hM1 hn ?_)
      dsimp only
      split
      · exact .okCtx hM1 hn (ih _ _ _ _ hM1)
      · exact .raise hM1 _
    | error hr =>
      have hr' := hr
      obtain ⟨hn⟩ := hr
      refine .hget (.failConsumed hM1 hn ?_)
      dsimp only
      split
      · exact .ret hM1 (.error hr')
      · exact .failExpected hM1 hn (sim_retOkS hM1 _ _ _ _ _)

theorem sim_manyLoop {T : TFns τ α} {H : HFns τ α} (hp : SimFns T H) (s : List τ) (ins : Int)
    (fuel : Nat) (pos : Nat) (ctx : Ctx τ) (b : Bool) (vs : List α) :
    SimR (manyLoop T.fn s ins fuel pos ctx b vs) (Heaped.manyLoop H.fn s ins fuel pos ctx b vs) := by
  induction fuel generalizing pos ctx b vs with
  | zero => intro m h g hM; exact .diverge hM
  | succ fuel ih =>
    intro m h g hM
    unfold manyLoop Heaped.manyLoop
    refine Sim.bind (hp.fn _ _ _ _ _ hM) fun m1 g1 h1 a b hm1 hM1 hab => ?_
    cases hab with
    | ok hr =>
      obtain ⟨hn⟩ := hr
      refine .hget (.okConsumed hM1 hn ?_)
      dsimp only
      split
      · exact .okCtx hM1 hn (ih _ _ _ _ hM1)
      · exact .raise hM1 _
    | recovered hr => exact sim_continueParse hM1 hr _ (fun v p c r => ih _ _ _ _) _
    | error hr =>
      have hr' := hr
      obtain ⟨hn⟩ := hr
      refine .hget (.failConsumed hM1 hn ?_)
      dsimp only
      split
      · exact .ret hM1 (.error hr')
      · exact .failExpected hM1 hn (sim_retOk hM1 _ _ _ _ _)

theorem simFns_many (fuel : Nat) {T : TFns τ α} {H : HFns τ α} (hp : SimFns T H) :
    SimFns (manyFns fuel T) (Heaped.manyFns fuel H) :=
  ⟨fun _ _ _ => sim_manyFastLoop hp _ _ _ _ _ _, fun _ _ _ _ _ => sim_manyLoop hp _ _ _ _ _ _ _⟩

theorem simFns_attempt {T : TFns τ α} {H : HFns τ α} (hp : SimFns T H) :
    SimFns (attemptFns T) (Heaped.attemptFns H) := by
  constructor
  · intro s pos ctx m h g hM
    simp only [attemptFns, Heaped.attemptFns]
    refine Sim.bind (hp.fast _ _ _ hM) fun m1 g1 h1 a b hm1 hM1 hab => ?_
    cases hab with
    | ok hr => exact .ret hM1 (.ok hr)
    | error hr =>
      obtain ⟨hn⟩ := hr
      exact .hget (.failExpected hM1 hn (sim_retErrS hM1 _ _))
  · intro s pos ctx ins rem m h g hM
    simp only [attemptFns, Heaped.attemptFns]
    cases rem with
    | some rem => exact hp.fn _ _ _ _ _ hM
    | none =>
      refine Sim.bind (hp.fast _ _ _ hM) fun m1 g1 h1 a b hm1 hM1 hab => ?_
      cases hab with
      | ok hr => exact .ret hM1 (.ok hr)
      | error hr =>
        obtain ⟨hn⟩ := hr
        exact .hget (.failExpected hM1 hn (sim_retErr hM1 _ _))

theorem simFns_label {T : TFns τ α} {H : HFns τ α} (hp : SimFns T H) (x : String) :
    SimFns (labelFns T x) (Heaped.labelFns H x) :=
  ⟨fun _ _ _ _ _ _ hM => Sim.bind (hp.fast _ _ _ hM) fun _ _ _ _ _ _ hM hab =>
      sim_simpleSetExpected hM _ hab,
    fun _ _ _ _ _ _ _ _ hM => Sim.bind (hp.fn _ _ _ _ _ hM) fun _ _ _ _ _ _ hM hab =>
      sim_resultSetExpected hM _ hab⟩

theorem simFns_recover {T : TFns τ α} {H : HFns τ α} (hp : SimFns T H) :
    SimFns (recoverFns T) (Heaped.recoverFns H) := by
  refine ⟨hp.fast, ?_⟩
  intro s pos ctx ins rem m h g hM
  simp only [recoverFns, Heaped.recoverFns]
  refine Sim.bind (hp.fn _ _ _ _ _ hM) fun m1 g1 h1 a b hm1 hM1 hab => ?_
  cases hab with
  | ok hr => exact .ret hM1 (.ok hr)
  | error hr => exact .ret hM1 (.error hr)
  | recovered hr =>
    have hr' := hr
    obtain ⟨hn, hreps⟩ := hr
    exact .hmodify (.upd (upd_promoteReps hreps hM1) fun g2 hM2 => .ret hM2 (.recovered hr'))

theorem simFns_recoverWith {T : TFns τ α} {H : HFns τ α} (hp : SimFns T H) (x : α) (vs : String) :
    SimFns (recoverWithFns T x vs) (Heaped.recoverWithFns H x vs) := by
  refine ⟨hp.fast, ?_⟩
  intro s pos ctx ins rem m h g hM
  simp only [recoverWithFns, Heaped.recoverWithFns]
  cases rem with
  | none => exact hp.fn _ _ _ _ _ hM
  | some rem =>
    refine Sim.bind (hp.fn _ _ _ _ _ hM) fun m1 g1 h1 a b hm1 hM1 hab => ?_
    cases hab with
    | ok hr => exact .ret hM1 (.ok hr)
    | error hr =>
      have hr' := hr
      obtain ⟨hn⟩ := hr
      refine .hget (.failConsumed hM1 hn ?_)
      dsimp only
      split
      · exact .ret hM1 (.error hr')
      · split
        · refine .failExpected hM1 hn ?_
          exact Sim.bind (sim_makeUserInsert hM1 _ _ _ _ _ _ _) fun m2 g2 h2 a b hm2 hM2 hab =>
            sim_retRec hM2 (.cons hab .nil) _ _ _
        · exact .ret hM1 (.error hr')
    | recovered hr =>
      have hr' := hr
      obtain ⟨hn, hreps⟩ := hr
      refine .hget (.failConsumed hM1 hn ?_)
      dsimp only
      split
      · exact .ret hM1 (.recovered hr')
      · split
        · refine .failExpected hM1 hn ?_
          refine Sim.bind (sim_makeUserInsert hM1 _ _ _ _ _ _ _) fun m2 g2 h2 a b hm2 hM2 hab => ?_
          exact .hget (.failExpected hM2 (hm2 _ _ _ hn)
            (sim_retRec hM2 (.cons hab (RReps.mono hm2 hreps)) _ _ _))
        · exact .ret hM1 (.recovered hr')

theorem simFns_recoverWithFn {T : TFns τ α} {H : HFns τ α} (hp : SimFns T H)
    (fn : List τ → Nat → Except Exn α) (lbl : α → String) :
    SimFns (recoverWithFnFns T fn lbl) (Heaped.recoverWithFnFns H fn lbl) := by
  refine ⟨hp.fast, ?_⟩
  intro s pos ctx ins rem m h g hM
  simp only [recoverWithFnFns, Heaped.recoverWithFnFns]
  cases rem with
  | none => exact hp.fn _ _ _ _ _ hM
  | some rem =>
    refine Sim.bind (hp.fn _ _ _ _ _ hM) fun m1 g1 h1 a b hm1 hM1 hab => ?_
    cases hab with
    | ok hr => exact .ret hM1 (.ok hr)
    | error hr =>
      have hr' := hr
      obtain ⟨hn⟩ := hr
      refine .hget (.failConsumed hM1 hn ?_)
      dsimp only
      split
      · exact .ret hM1 (.error hr')
      · split
        · refine Sim.bind (.ofExcept hM1 _) ?_
          rintro m2 g2 h2 v _ hm2 hM2 rfl
          refine .hget (.failExpected hM2 (hm2 _ _ _ hn) ?_)
          exact Sim.bind (sim_makeUserInsert hM2 _ _ _ _ _ _ _) fun m2 g2 h2 a b hm2 hM2 hab =>
            sim_retRec hM2 (.cons hab .nil) _ _ _
        · exact .ret hM1 (.error hr')
    | recovered hr =>
      have hr' := hr
      obtain ⟨hn, hreps⟩ := hr
      refine .hget (.failConsumed hM1 hn ?_)
      dsimp only
      split
      · exact .ret hM1 (.recovered hr')
      · split
        · refine Sim.bind (.ofExcept hM1 _) ?_
          rintro m2 g2 h2 v _ hm2 hM2 rfl
          refine .hget (.failExpected hM2 (hm2 _ _ _ hn) ?_)
          refine Sim.bind (sim_makeUserInsert hM2 _ _ _ _ _ _ _) fun m3 g3 h3 a b hm3 hM3 hab => ?_
          have hm := hm2.trans hm3
          exact .hget (.failExpected hM3 (hm _ _ _ hn)
            (sim_retRec hM3 (.cons hab (RReps.mono hm hreps)) _ _ _))
        · exact .ret hM1 (.recovered hr')

theorem simFns_block {T : TFns τ α} {H : HFns τ α} (hp : SimFns T H) :
    SimFns (blockFns T) (Heaped.blockFns H) :=
  ⟨fun _ _ _ _ _ _ hM => Sim.bind (hp.fast _ _ _ hM) fun _ _ _ _ _ _ hM hab =>
      sim_simpleSetCtx hM _ hab,
    fun _ _ _ _ _ _ _ _ hM => Sim.bind (hp.fn _ _ _ _ _ hM) fun _ _ _ _ _ _ hM hab =>
      sim_resultSetCtx hM _ hab⟩

theorem simFns_aligned {T : TFns τ α} {H : HFns τ α} (hp : SimFns T H) :
    SimFns (alignedFns T) (Heaped.alignedFns H) := by
  constructor
  · intro s pos ctx m h g hM
    simp only [alignedFns, Heaped.alignedFns]
    split
    · exact hp.fast _ _ _ hM
    · exact sim_retErrS hM _ _
  · intro s pos ctx ins rem m h g hM
    simp only [alignedFns, Heaped.alignedFns]
    split
    · exact hp.fn _ _ _ _ _ hM
    · exact sim_retErr hM _ _

theorem simFns_indented (d : Int) {T : TFns τ α} {H : HFns τ α} (hp : SimFns T H) :
    SimFns (indentedFns d T) (Heaped.indentedFns d H) := by
  constructor
  · intro s pos ctx m h g hM
    simp only [indentedFns, Heaped.indentedFns]
    split
    · exact Sim.bind (hp.fast _ _ _ hM) fun _ _ _ _ _ _ hM hab => sim_simpleSetCtx hM _ hab
    · exact sim_retErrS hM _ _
  · intro s pos ctx ins rem m h g hM
    simp only [indentedFns, Heaped.indentedFns]
    split
    · exact Sim.bind (hp.fn _ _ _ _ _ hM) fun _ _ _ _ _ _ hM hab => sim_resultSetCtx hM _ hab
    · exact sim_retErr hM _ _

variable {ρ : Type} {Γ : ρ → Type}

theorem simFns_denoteWith [BEq τ] (fuel : Nat) {tT : (i : ρ) → TFns τ (Γ i)}
    {tH : (i : ρ) → HFns τ (Γ i)} (ht : ∀ i, SimFns (tT i) (tH i)) (p : P τ ρ Γ α) :
    SimFns (denoteWith fuel tT p) (Heaped.denoteWith fuel tH p) := by
  induction p with
  | pure x => exact simFns_pure x
  | pureFn x => exact simFns_pureFn x
  | unexpected x => exact simFns_unexpected x
  | eof => exact simFns_eof
  | satisfy test => exact simFns_satisfy test
  | sym s l => exact simFns_sym s l
  | literal s ss _ => exact simFns_literal s ss
  | regexp m => exact simFns_regexp m
  | fmap p fn ih => exact simFns_fmap ih fn
  | alt p q ihp ihq => exact simFns_alt ihp ihq
  | bind p fn ihp ihq => exact simFns_bind ihp ihq
  | seqWith p q merge ihp ihq => exact simFns_seq ihp ihq merge
  | maybe p ih => exact simFns_maybe ih
  | many p ih => exact simFns_many fuel ih
  | attempt p ih => exact simFns_attempt ih
  | label p x ih => exact simFns_label ih x
  | recover p ih => exact simFns_recover ih
  | recoverWith p x vs ih => exact simFns_recoverWith ih x vs
  | recoverWithFn p fn lbl ih => exact simFns_recoverWithFn ih fn lbl
  | block p ih => exact simFns_block ih
  | aligned p ih => exact simFns_aligned ih
  | indented delta p ih => exact simFns_indented delta ih
  | ref i => exact ht i

theorem simFns_table [BEq τ] (env : Env τ ρ Γ) (fuel : Nat) (i : ρ) :
    SimFns (table env fuel i) (Heaped.table env fuel i) := by
  induction fuel generalizing i with
  | zero => exact ⟨fun _ _ _ _ _ _ hM => .diverge hM, fun _ _ _ _ _ _ _ _ hM => .diverge hM⟩
  | succ fuel ih =>
    unfold table Heaped.table
    cases env i with
    | none => exact ⟨fun _ _ _ _ _ _ hM => .raise hM _, fun _ _ _ _ _ _ _ _ hM => .raise hM _⟩
    | some p => exact simFns_denoteWith fuel ih p

/-- The whole of `Parser.parse`. -/
theorem sim_parse [BEq τ] (env : Env τ ρ Γ) (fuel : Nat) (p : P τ ρ Γ α) (s : List τ) (rec? : Bool)
    (k : Int) (gl : Loc → List τ → Nat → Loc) :
    SimR (Thr.parse env fuel p s rec? k gl) (Heaped.parse env fuel p s rec? k gl) := by
  intro m h g hM
  have hd := simFns_denoteWith fuel (simFns_table env fuel) p
  unfold Thr.parse Heaped.parse
  cases rec? with
  | true => exact hd.fn _ _ _ _ _ hM
  | false =>
    refine Sim.bind (hd.fast _ _ _ hM) fun m1 g1 h1 a b hm1 hM1 hab => ?_
    cases hab with
    | ok hr => exact .ret hM1 (.ok hr)
    | error hr => exact .ret hM1 (.error hr)

end Reparsec.Thr
