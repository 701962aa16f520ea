import Verif.Lemmas.Threads

/-!
# Each function, one step at a time, does what the model with one heap does
-/

namespace Reparsec.Thr

open Heaped (OpCell RepCell OkCell FailCell HOp HRepair HOk HErr HRecovered HSimple HResult Heap HM upd)

variable {τ α β γ : Type}

/-! ### Updating -/

theorem upd_opsSetExpected {m : AddrMap} (e : List String) {os os' : List HOp}
    (ho : RList (ROp m) os os') {h : Heap τ} {g : Store τ} (hM : Match m h g) :
    Upd m g (opsSetExpected e os) (Heaped.opsSetExpected e os' h) := by
  induction ho generalizing h g with
  | nil => exact .nil hM
  | @cons x y xs ys hxy _ ih =>
    obtain ⟨hn⟩ := hxy
    rename_i n a op loc
    simp only [opsSetExpected, Heaped.opsSetExpected, Heaped.setOp]
    refine .opConsumed hM hn ?_
    split
    · exact ih hM
    · exact .bind (.op hM hn) fun g' hM' => ih hM'

theorem upd_opsPrependExpected {m : AddrMap} (e : List String) (b : Bool) {os os' : List HOp}
    (ho : RList (ROp m) os os') {h : Heap τ} {g : Store τ} (hM : Match m h g) :
    Upd m g (opsPrependExpected e b os) (Heaped.opsPrependExpected e b os' h) := by
  induction ho generalizing h g with
  | nil => exact .nil hM
  | @cons x y xs ys hxy _ ih =>
    obtain ⟨hn⟩ := hxy
    rename_i n a op loc
    simp only [opsPrependExpected, Heaped.opsPrependExpected, Heaped.prependOp]
    refine .opConsumed hM hn ?_
    split
    · exact ih hM
    · refine .opExpected hM hn (.bind (.op hM hn) fun g1 hM1 => .opConsumed hM1 hn ?_)
      refine .bind (.op hM1 hn) fun g2 hM2 => ?_
      simp only [upd_upd, upd_at] at hM2
      exact ih hM2

theorem upd_repsSetCtx {m : AddrMap} (ctx : Ctx τ) {rs rs' : List (HRepair α)}
    (hr : RList (RRep m) rs rs') {h : Heap τ} {g : Store τ} (hM : Match m h g) :
    Upd m g (repsSetCtx ctx rs) (Heaped.repsSetCtx ctx rs' h) := by
  induction hr generalizing h g with
  | nil => exact .nil hM
  | @cons x y xs ys hxy _ ih =>
    obtain ⟨hn, _⟩ := hxy
    exact .bind (.rep hM hn) fun g1 hM1 => ih hM1

theorem upd_repsSetExpected {m : AddrMap} (e : List String) {rs rs' : List (HRepair α)}
    (hr : RList (RRep m) rs rs') {h : Heap τ} {g : Store τ} (hM : Match m h g) :
    Upd m g (repsSetExpected e rs) (Heaped.repsSetExpected e rs' h) := by
  induction hr generalizing h g with
  | nil => exact .nil hM
  | @cons x y xs ys hxy _ ih =>
    obtain ⟨hn, ho⟩ := hxy
    simp only [repsSetExpected, Heaped.repsSetExpected, Heaped.repSetExpected]
    refine .repConsumed hM hn ?_
    split
    · exact .bind (upd_opsSetExpected e ho hM) fun g1 hM1 => ih hM1
    · exact .bind (.rep hM hn) fun g1 hM1 => .bind (upd_opsSetExpected e ho hM1) fun g2 hM2 => ih hM2

theorem upd_repsPrependExpected {m : AddrMap} (e : List String) (b : Bool)
    {rs rs' : List (HRepair α)} (hr : RList (RRep m) rs rs') {h : Heap τ} {g : Store τ}
    (hM : Match m h g) :
    Upd m g (repsPrependExpected e b rs) (Heaped.repsPrependExpected e b rs' h) := by
  induction hr generalizing h g with
  | nil => exact .nil hM
  | @cons x y xs ys hxy _ ih =>
    obtain ⟨hn, ho⟩ := hxy
    simp only [repsPrependExpected, Heaped.repsPrependExpected, Heaped.repPrependExpected]
    refine .repConsumed hM hn ?_
    split
    · exact .bind (upd_opsPrependExpected e b ho hM) fun g1 hM1 => ih hM1
    · refine .repExpected hM hn (.bind (.rep hM hn) fun g1 hM1 => .repConsumed hM1 hn ?_)
      refine .bind (.rep hM1 hn) fun g2 hM2 => ?_
      simp only [upd_upd, upd_at] at hM2
      exact .bind (upd_opsPrependExpected e b ho hM2) fun g3 hM3 => ih hM3

theorem upd_promoteReps {m : AddrMap} {rs rs' : List (HRepair α)}
    (hr : RList (RRep m) rs rs') {h : Heap τ} {g : Store τ} (hM : Match m h g) :
    Upd m g (promoteReps rs) (Heaped.promoteReps rs' h) := by
  induction hr generalizing h g with
  | nil => exact .nil hM
  | @cons x y xs ys hxy _ ih =>
    obtain ⟨hn, ho⟩ := hxy
    simp only [promoteReps, Heaped.promoteReps, Heaped.promoteRep]
    refine .repPrio hM hn ?_
    generalize hp : (h.reps _).prio = pr
    cases pr with
    | none => exact .bind (.rep hM hn) fun g1 hM1 => ih hM1
    | some _ => exact ih hM

theorem upd_failSetExpected {m : AddrMap} (e : List String) {n a : Nat}
    (hn : m .fail n = some a) {h : Heap τ} {g : Store τ} (hM : Match m h g) :
    Upd m g (failSetExpected e a) (Heaped.failSetExpected e n h) := by
  unfold failSetExpected Heaped.failSetExpected
  refine .failConsumed hM hn ?_
  split
  · exact .nil hM
  · exact .fail hM hn

theorem upd_failPrependExpected {m : AddrMap} (e : List String) (b : Bool) {n a : Nat}
    (hn : m .fail n = some a) {h : Heap τ} {g : Store τ} (hM : Match m h g) :
    Upd m g (failPrependExpected e b a) (Heaped.failPrependExpected e b n h) := by
  unfold failPrependExpected Heaped.failPrependExpected
  refine .failConsumed hM hn ?_
  split
  · exact .nil hM
  · refine .failExpected hM hn (.bind (.fail hM hn) fun g1 hM1 => .failConsumed hM1 hn ?_)
    refine wp_mono (Upd.fail hM1 hn) ?_
    rintro g2 o ⟨rfl, hM2⟩
    simp only [upd_upd, upd_at] at hM2
    exact ⟨rfl, hM2⟩

theorem upd_okPrependExpected {m : AddrMap} (e : List String) (b : Bool) {x y : HOk α}
    (hr : ROk m x y) {h : Heap τ} {g : Store τ} (hM : Match m h g) :
    Upd m g (okPrependExpected e b x.addr) (Heaped.okPrependExpected e b y h) := by
  obtain ⟨hn⟩ := hr
  unfold okPrependExpected Heaped.okPrependExpected
  refine .okConsumed hM hn ?_
  dsimp only
  split
  · exact .nil hM
  · refine .okExpected hM hn (.bind (.ok hM hn) fun g1 hM1 => .okConsumed hM1 hn ?_)
    refine wp_mono (Upd.ok hM1 hn) ?_
    rintro g2 o ⟨rfl, hM2⟩
    simp only [upd_upd, upd_at] at hM2
    exact ⟨rfl, hM2⟩

section

variable {m : AddrMap} {h : Heap τ} {g : Store τ}

theorem sim_okSetExpected (hM : Match m h g) (e : List String) {x y : HOk α} (hr : ROk m x y) :
    Sim ROk m g (okSetExpected e x) (Heaped.HOk.setExpected e y h) := by
  obtain ⟨hn⟩ := hr
  unfold okSetExpected
  show Sim ROk m g _ (.ret _, Heaped.okSetExpected e _ h)
  unfold Heaped.okSetExpected
  refine .okConsumed hM hn ?_
  dsimp only
  split
  · exact .ret hM (.mk hn)
  · exact .upd (.ok hM hn) fun g1 hM1 => .ret hM1 (.mk hn)

theorem sim_simpleSetCtx (hM : Match m h g) (ctx : Ctx τ) {x y : HSimple α} (hr : RSimple m x y) :
    Sim RSimple m g (simpleSetCtx ctx x) (Heaped.HSimple.setCtx ctx y h) := by
  cases hr with
  | ok hr =>
    obtain ⟨hn⟩ := hr
    exact .upd (.ok hM hn) fun g1 hM1 => .ret hM1 (.ok (.mk hn))
  | error hr => exact .ret hM (.error hr)

theorem sim_resultSetCtx (hM : Match m h g) (ctx : Ctx τ) {x y : HResult α} (hr : RResult m x y) :
    Sim RResult m g (resultSetCtx ctx x) (Heaped.HResult.setCtx ctx y h) := by
  cases hr with
  | ok hr =>
    obtain ⟨hn⟩ := hr
    exact .upd (.ok hM hn) fun g1 hM1 => .ret hM1 (.ok (.mk hn))
  | error hr => exact .ret hM (.error hr)
  | recovered hr =>
    obtain ⟨hn, hreps⟩ := hr
    exact .upd (upd_repsSetCtx ctx hreps hM) fun g1 hM1 => .ret hM1 (.recovered (.mk hn hreps))

theorem sim_recoveredSetExpected (hM : Match m h g) (e : List String) {x y : HRecovered α}
    (hr : RRec m x y) :
    Sim RRec m g (recoveredSetExpected e x) (Heaped.HRecovered.setExpected e y h) := by
  obtain ⟨hn, hreps⟩ := hr
  exact .upd (upd_failSetExpected e hn hM) fun g1 hM1 =>
    .upd (upd_repsSetExpected e hreps hM1) fun g2 hM2 => .ret hM2 (.mk hn hreps)

theorem sim_simpleSetExpected (hM : Match m h g) (e : List String) {x y : HSimple α}
    (hr : RSimple m x y) :
    Sim RSimple m g (simpleSetExpected e x) (Heaped.HSimple.setExpected e y h) := by
  cases hr with
  | ok hr =>
    exact Sim.bind (k := fun r => Pure.pure (HSimple.ok r)) (sim_okSetExpected hM e hr)
      fun m' g' h' a b _ hM' hab => .ret hM' (.ok hab)
  | error hr =>
    obtain ⟨hn⟩ := hr
    exact .upd (upd_failSetExpected e hn hM) fun g1 hM1 => .ret hM1 (.error (.mk hn))

theorem sim_resultSetExpected (hM : Match m h g) (e : List String) {x y : HResult α}
    (hr : RResult m x y) :
    Sim RResult m g (resultSetExpected e x) (Heaped.HResult.setExpected e y h) := by
  cases hr with
  | ok hr =>
    exact Sim.bind (k := fun r => Pure.pure (HResult.ok r)) (sim_okSetExpected hM e hr)
      fun m' g' h' a b _ hM' hab => .ret hM' (.ok hab)
  | error hr =>
    obtain ⟨hn⟩ := hr
    exact .upd (upd_failSetExpected e hn hM) fun g1 hM1 => .ret hM1 (.error (.mk hn))
  | recovered hr =>
    exact Sim.bind (k := fun r => Pure.pure (HResult.recovered r)) (sim_recoveredSetExpected hM e hr)
      fun m' g' h' a b _ hM' hab => .ret hM' (.recovered hab)

theorem sim_simplePrependExpected (hM : Match m h g) (e : List String) (b : Bool)
    {x y : HSimple α} (hr : RSimple m x y) :
    Sim RSimple m g (simplePrependExpected e b x) (Heaped.HSimple.prependExpected e b y h) := by
  cases hr with
  | ok hr => exact .upd (upd_okPrependExpected e b hr hM) fun g1 hM1 => .ret hM1 (.ok hr)
  | error hr =>
    obtain ⟨hn⟩ := hr
    exact .upd (upd_failPrependExpected e b hn hM) fun g1 hM1 => .ret hM1 (.error (.mk hn))

theorem sim_resultPrependExpected (hM : Match m h g) (e : List String) (b : Bool)
    {x y : HResult α} (hr : RResult m x y) :
    Sim RResult m g (resultPrependExpected e b x) (Heaped.HResult.prependExpected e b y h) := by
  cases hr with
  | ok hr => exact .upd (upd_okPrependExpected e b hr hM) fun g1 hM1 => .ret hM1 (.ok hr)
  | error hr =>
    obtain ⟨hn⟩ := hr
    exact .upd (upd_failPrependExpected e b hn hM) fun g1 hM1 => .ret hM1 (.error (.mk hn))
  | recovered hr =>
    obtain ⟨hn, hreps⟩ := hr
    exact .upd (upd_failPrependExpected e b hn hM) fun g1 hM1 =>
      .upd (upd_repsPrependExpected e b hreps hM1) fun g2 hM2 =>
        .ret hM2 (.recovered (.mk hn hreps))

/-! ### `fmap` -/

theorem sim_okFmap (hM : Match m h g) (fn : α → Except Exn β) {x y : HOk α} (hr : ROk m x y) :
    Sim ROk m g (okFmap fn x) (Heaped.HOk.fmapM fn y h) := by
  obtain ⟨hn⟩ := hr
  refine Sim.bind (.ofExcept hM _) ?_
  rintro m1 g1 h1 v _ hm hM1 rfl
  have hn := hm _ _ _ hn
  exact .okCtx hM1 hn (.okExpected hM1 hn (.okConsumed hM1 hn (sim_newOk hM1 _ _ _ _ _)))

theorem repairFmap_eq (fn : α → Except Exn β) (r : HRepair α) (h : Heap τ) :
    Heaped.HRepair.fmapM fn r h = (HM.ofExcept (fn r.value) >>= fun v =>
      Heaped.newRepair r.cost (h.reps r.addr).prio r.ins r.ops v r.pos (h.reps r.addr).ctx
        (h.reps r.addr).expected (h.reps r.addr).consumed) h := by
  show (HM.ofExcept (fn r.value) >>= _) h = _
  cases fn r.value <;> rfl

theorem sim_repairFmap (hM : Match m h g) (fn : α → Except Exn β) {x y : HRepair α}
    (hr : RRep m x y) : Sim RRep m g (repairFmap fn x) (Heaped.HRepair.fmapM fn y h) := by
  obtain ⟨hn, ho⟩ := hr
  unfold repairFmap
  rename_i n a cost ins ops ops' v pos
  refine .repPrio hM hn ?_
  show Sim RRep m g (Prog.ofExcept (fn v) >>= _) ((HM.ofExcept (fn v) >>= _) h)
  cases fn v with
  | error e => exact ⟨m, .rfl, hM, rfl⟩
  | ok w =>
    exact .repCtx hM hn (.repExpected hM hn (.repConsumed hM hn (sim_newRepair hM _ _ _ ho _ _ _ _ _)))

theorem sim_repairsFmap (fn : α → Except Exn β) {m : AddrMap} {xs ys : List (HRepair α)}
    (hr : RList (RRep m) xs ys) {h : Heap τ} {g : Store τ} (hM : Match m h g) :
    Sim (fun m => RList (RRep m)) m g (repairsFmap fn xs) (Heaped.repairsFmapM fn ys h) := by
  induction ys generalizing xs m h g with
  | nil => cases hr; exact .ret hM .nil
  | cons y ys ih =>
    cases hr with
    | cons hxy hr =>
      refine Sim.bind (sim_repairFmap hM fn hxy) fun m1 g1 h1 a b hm hM1 hab => ?_
      refine Sim.bind (ih (RReps.mono hm hr) hM1) fun m2 g2 h2 as bs hm2 hM2 habs => ?_
      exact .ret hM2 (.cons (hab.mono hm2) habs)

theorem sim_simpleFmap (hM : Match m h g) (fn : α → Except Exn β) {x y : HSimple α}
    (hr : RSimple m x y) : Sim RSimple m g (simpleFmap fn x) (Heaped.HSimple.fmapM fn y h) := by
  cases hr with
  | ok hr =>
    exact Sim.bind (sim_okFmap hM fn hr) fun m1 g1 h1 a b hm hM1 hab => .ret hM1 (.ok hab)
  | error hr => exact .ret hM (.error hr)

theorem sim_resultFmap (hM : Match m h g) (fn : α → Except Exn β) {x y : HResult α}
    (hr : RResult m x y) : Sim RResult m g (resultFmap fn x) (Heaped.HResult.fmapM fn y h) := by
  cases hr with
  | ok hr =>
    exact Sim.bind (sim_okFmap hM fn hr) fun m1 g1 h1 a b hm hM1 hab => .ret hM1 (.ok hab)
  | error hr => exact .ret hM (.error hr)
  | recovered hr =>
    obtain ⟨hn, hreps⟩ := hr
    refine Sim.bind (sim_repairsFmap fn hreps hM) fun m1 g1 h1 a b hm hM1 hab => ?_
    have hn := hm _ _ _ hn
    refine .hget (.failExpected hM1 hn (.failConsumed hM1 hn ?_))
    exact Sim.bind (sim_newRecovered hM1 hab _ _ _ _) fun m2 g2 h2 a b hm hM2 hab =>
      .ret hM2 (.recovered hab)

/-! ### `core/recovery.py` -/

theorem sim_copyOps {m : AddrMap} {xs ys : List HOp}
    (hr : RList (ROp m) xs ys) {h : Heap τ} {g : Store τ} (hM : Match m h g) :
    Sim (fun m => RList (ROp m)) m g (copyOps xs) (Heaped.copyOps ys h) := by
  induction ys generalizing xs m h g with
  | nil => cases hr; exact .ret hM .nil
  | cons y ys ih =>
    cases hr with
    | cons hxy hr =>
      obtain ⟨hn⟩ := hxy
      unfold copyOps Heaped.copyOps
      refine .hget (.opExpected hM hn (.opConsumed hM hn ?_))
      refine Sim.bind (sim_newOp hM _ _ _ _) fun m1 g1 h1 a b hm hM1 hab => ?_
      refine Sim.bind (ih (ROps.mono hm hr) hM1) fun m2 g2 h2 as bs hm2 hM2 habs => ?_
      exact .ret hM2 (.cons (hab.mono hm2) habs)

theorem sim_joinOps (hM : Match m h g) {x y : HRepair α} {x' y' : HRepair β}
    (hr : RRep m x y) (hr' : RRep m x' y') :
    Sim (fun m => RList (ROp m)) m g (joinOps x x') (Heaped.joinOps y y' h) := by
  obtain ⟨hn, ho⟩ := hr
  obtain ⟨hn', ho'⟩ := hr'
  refine Sim.bind (sim_copyOps ho hM) fun m1 g1 h1 as bs hm hM1 hab => ?_
  have hn := hm _ _ _ hn
  have ho' := ROps.mono hm ho'
  refine .repExpected hM1 hn (.repConsumed hM1 hn ?_)
  exact .upd (upd_opsPrependExpected _ _ ho' hM1) fun g2 hM2 => .ret hM2 (hab.append ho')

theorem Sim.appendExpected {R : AddrMap → γ → γ → Prop} (hM : Match m h g) {x y : HRepair α}
    (hr : RRep m x y)
    (e : List String) (b : Bool) {f : List String → Prog τ γ} {oh : Out γ × Heap τ}
    (hf : Sim R m g (f (Heaped.appendExpected h y e b)) oh) :
    Sim R m g (Thr.appendExpected x e b >>= f) oh := by
  obtain ⟨hn, _⟩ := hr
  cases b with
  | true => exact hf
  | false => exact Sim.repExpected (f := fun e' => f (e' ++ e)) hM hn hf

theorem copyOps_reps (os : List HOp) (h : Heap τ) : (Heaped.copyOps os h).2.reps = h.reps := by
  induction os generalizing h with
  | nil => rfl
  | cons o os ih =>
    show ((Heaped.newOp o.op o.loc (h.ops o.addr).expected (h.ops o.addr).consumed >>= fun i' =>
      (Heaped.copyOps os >>= fun is' => Pure.pure (i' :: is'))) h).2.reps = _
    show ((Heaped.copyOps os >>= fun is' => Pure.pure (_ :: is')) { h with nOps := _, ops := _ }).2.reps = _
    generalize hh : (({ h with
      nOps := h.nOps + 1,
      ops := upd h.ops h.nOps ⟨(h.ops o.addr).expected, (h.ops o.addr).consumed⟩ } : Heap τ)) = h1
    have e : h1.reps = h.reps := by rw [← hh]
    have := ih h1
    show (HM.bind _ _ h1).2.reps = _
    unfold HM.bind
    rcases hx : Heaped.copyOps os h1 with ⟨xo, h'⟩
    rw [hx] at this
    cases xo <;> exact this.trans e

theorem opsPrependExpected_reps (e : List String) (b : Bool) (os : List HOp) (h : Heap τ) :
    (Heaped.opsPrependExpected e b os h).reps = h.reps := by
  induction os generalizing h with
  | nil => rfl
  | cons o os ih =>
    unfold Heaped.opsPrependExpected
    rw [ih]
    unfold Heaped.prependOp
    split <;> rfl

theorem joinOps_reps (y : HRepair α) (y' : HRepair β) (h : Heap τ) :
    (Heaped.joinOps y y' h).2.reps = h.reps := by
  have := copyOps_reps y.ops h
  show (HM.bind _ _ h).2.reps = _
  unfold HM.bind
  rcases hx : Heaped.copyOps y.ops h with ⟨xo, h'⟩
  rw [hx] at this
  cases xo
  · exact this
  · exact this
  · exact (opsPrependExpected_reps _ _ _ _).trans this

theorem joinOps_reps' {y : HRepair α} {y' : HRepair β} {h h1 : Heap τ} {o : Out (List HOp)}
    (hj : Heaped.joinOps y y' h = (o, h1)) : h1.reps = h.reps := by
  have := joinOps_reps y y' h
  rwa [hj] at this

theorem sim_contInner (merge : α → β → γ) {m : AddrMap} {x y : HRepair α} (hxy : RRep m x y)
    {xs ys : List (HRepair β)} (hr : RList (RRep m) xs ys) {h : Heap τ} {g : Store τ}
    (hM : Match m h g) :
    Sim (fun m => RList (RRep m)) m g (contInner merge x xs) (Heaped.contInner merge y ys h) := by
  induction ys generalizing xs m h g with
  | nil => cases hr; exact .ret hM .nil
  | cons z zs ih =>
    cases hr with
    | cons hz hr =>
      have hx := hxy
      obtain ⟨hn, ho⟩ := hxy
      unfold contInner Heaped.contInner
      refine .repPrio hM hn ?_
      refine Sim.bind' (sim_joinOps hM hx hz) fun m1 g1 h1 a b hm hM1 hab hj => ?_
      have hreps := joinOps_reps' hj
      have hx1 := hx.mono hm
      have hn := hm _ _ _ hn
      have hr := RReps.mono hm hr
      obtain ⟨hn', ho'⟩ := hz
      have hn' := hm _ _ _ hn'
      refine .hget (.repCtx hM1 hn' (.repExpected hM1 hn' (.repConsumed hM1 hn' ?_)))
      refine .appendExpected hM1 hx1 _ _ (.repConsumed hM1 hn ?_)
      dsimp only
      rw [← hreps]
      cases hc : (h1.reps _).consumed with
      | true =>
        refine Sim.bind (sim_newRepair hM1 _ _ _ hab _ _ _ _ _) fun m2 g2 h2 a b hm2 hM2 hab => ?_
        refine Sim.bind (ih (hx1.mono hm2) (RReps.mono hm2 hr) hM2) fun m3 g3 h3 as bs hm3 hM3 habs => ?_
        exact .ret hM3 (.cons (hab.mono hm3) habs)
      | false =>
        refine .repConsumed hM1 hn' ?_
        refine Sim.bind (sim_newRepair hM1 _ _ _ hab _ _ _ _ _) fun m2 g2 h2 a b hm2 hM2 hab => ?_
        refine Sim.bind (ih (hx1.mono hm2) (RReps.mono hm2 hr) hM2) fun m3 g3 h3 as bs hm3 hM3 habs => ?_
        exact .ret hM3 (.cons (hab.mono hm3) habs)

theorem sim_contOne (hM : Match m h g) (ins : Int) (merge : α → β → γ) {x y : HRepair α}
    (hxy : RRep m x y) {a b : HResult β} (hab : RResult m a b) :
    Sim (fun m => RList (RRep m)) m g (contOne ins merge x a) (Heaped.contOne ins merge y b h) := by
  cases hab with
  | ok hr =>
    have hx := hxy
    obtain ⟨hn, ho⟩ := hxy
    obtain ⟨hn'⟩ := hr
    unfold contOne Heaped.contOne
    refine .hget (.repPrio hM hn (.okCtx hM hn' (.okExpected hM hn' (.okConsumed hM hn' ?_))))
    refine .appendExpected hM hx _ _ (.repConsumed hM hn ?_)
    dsimp only
    cases hc : (h.reps _).consumed with
    | true =>
      exact Sim.bind (sim_newRepair hM _ _ _ ho _ _ _ _ _) fun m2 g2 h2 a b hm2 hM2 hab =>
        .ret hM2 (.cons hab .nil)
    | false =>
      refine .okConsumed hM hn' ?_
      exact Sim.bind (sim_newRepair hM _ _ _ ho _ _ _ _ _) fun m2 g2 h2 a b hm2 hM2 hab =>
        .ret hM2 (.cons hab .nil)
  | error hr => exact .ret hM .nil
  | recovered hr =>
    obtain ⟨_, hreps⟩ := hr
    exact sim_contInner merge hxy hreps hM

/-- The same code, whatever the heap. -/
abbrev SimR (T : Prog τ (HResult α)) (H : HM τ (HResult α)) : Prop :=
  ∀ {m : AddrMap} {h : Heap τ} {g : Store τ}, Match m h g → Sim RResult m g T (H h)

/-- The same code, whatever the heap. -/
abbrev SimS (T : Prog τ (HSimple α)) (H : HM τ (HSimple α)) : Prop :=
  ∀ {m : AddrMap} {h : Heap τ} {g : Store τ}, Match m h g → Sim RSimple m g T (H h)

theorem sim_contReps (ins : Int) {T : α → Nat → Ctx τ → Int → Prog τ (HResult β)}
    {H : α → Nat → Ctx τ → Int → HM τ (HResult β)} (hTH : ∀ a b c d, SimR (T a b c d) (H a b c d))
    (merge : α → β → γ) {m : AddrMap} {xs ys : List (HRepair α)}
    (hr : RList (RRep m) xs ys) {h : Heap τ} {g : Store τ} (hM : Match m h g) :
    Sim (fun m => RList (RRep m)) m g (contReps ins T merge xs) (Heaped.contReps ins H merge ys h) := by
  induction ys generalizing xs m h g with
  | nil => cases hr; exact .ret hM .nil
  | cons y ys ih =>
    cases hr with
    | cons hxy hr =>
      have hx := hxy
      obtain ⟨hn, ho⟩ := hxy
      unfold contReps Heaped.contReps
      refine .hget (.repCtx hM hn ?_)
      refine Sim.bind (hTH _ _ _ _ hM) fun m1 g1 h1 a b hm hM1 hab => ?_
      refine Sim.bind (sim_contOne hM1 ins merge (hx.mono hm) hab) fun m2 g2 h2 as bs hm2 hM2 habs => ?_
      refine Sim.bind (ih (RReps.mono (hm.trans hm2) hr) hM2) fun m3 g3 h3 as' bs' hm3 hM3 habs' => ?_
      exact .ret hM3 ((RReps.mono hm3 habs).append habs')

theorem sim_continueParse (hM : Match m h g) {x y : HRecovered α} (hr : RRec m x y) (ins : Int)
    {T : α → Nat → Ctx τ → Int → Prog τ (HResult β)}
    {H : α → Nat → Ctx τ → Int → HM τ (HResult β)} (hTH : ∀ a b c d, SimR (T a b c d) (H a b c d))
    (merge : α → β → γ) :
    Sim RResult m g (continueParse x ins T merge) (Heaped.continueParse y ins H merge h) := by
  obtain ⟨hn, hreps⟩ := hr
  refine Sim.bind (sim_contReps ins hTH merge hreps hM) fun m1 g1 h1 as bs hm hM1 habs => ?_
  have hn := hm _ _ _ hn
  refine .hget (.failExpected hM1 hn (.failConsumed hM1 hn ?_))
  exact Sim.bind (sim_newRecovered hM1 habs _ _ _ _) fun m2 g2 h2 a b hm hM2 hab =>
    .ret hM2 (.recovered hab)

theorem Sim.bindRet {R : AddrMap → α → α → Prop} {S : AddrMap → β → β → Prop} {y : α}
    {p : Prog τ α} {f : α → Prog τ β} {oh : Out β × Heap τ}
    (hp : Sim R m g p (.ret y, h))
    (hf : ∀ m' g' x, m.le m' → Match m' h g' → R m' x y → Sim S m' g' (f x) oh) :
    Sim S m g (p >>= f) oh := by
  refine wp_bind (wp_mono hp ?_)
  rintro g' o ⟨m', hm, hM, ho⟩
  cases o <;> try (exact ho.elim)
  refine wp_mono (hf m' g' _ hm hM ho) ?_
  rintro g2 o2 ⟨m2, hm2, h2⟩
  exact ⟨m2, hm.trans hm2, h2⟩

theorem sim_filterBelow {m : AddrMap} {h : Heap τ} {g : Store τ} (hM : Match m h g) (k : Nat)
    {xs ys : List (HRepair α)} (hr : RList (RRep m) xs ys) :
    Sim (fun m => RList (RRep m)) m g (filterBelow k xs)
      (.ret (ys.filter (Heaped.prioBelow h k)), h) := by
  induction ys generalizing xs m g with
  | nil => cases hr; exact .ret hM .nil
  | cons y ys ih =>
    cases hr with
    | cons hxy hr =>
      have hx := hxy
      obtain ⟨hn, ho⟩ := hxy
      rename_i n a cost ins ops ops' v pos
      simp only [filterBelow]
      refine .repPrio hM hn ?_
      have hb : Heaped.prioBelow h k (⟨n, cost, ins, ops', v, pos⟩ : HRepair α) =
        match (h.reps n).prio with | none => false | some p => decide (p < k) := rfl
      rcases hp : (h.reps n).prio with _ | q <;> rw [hp] at hb
      · rw [List.filter_cons_of_neg (by rw [hb]; exact Bool.false_ne_true)]
        exact ih hM hr
      · refine .repPrio hM hn ?_
        rw [hp]
        dsimp only at hb ⊢
        by_cases hq : q < k
        · rw [List.filter_cons_of_pos (by simp [hb, hq]), if_pos hq]
          exact .bindRet (ih hM hr) fun m' g' zs hm hM' hzs => .ret hM' (.cons (hx.mono hm) hzs)
        · rw [List.filter_cons_of_neg (by simp [hb, hq]), if_neg hq]
          exact ih hM hr

theorem sim_filterSome {m : AddrMap} {h : Heap τ} {g : Store τ} (hM : Match m h g)
    {xs ys : List (HRepair α)} (hr : RList (RRep m) xs ys) :
    Sim (fun m => RList (RRep m)) m g (filterSome xs)
      (.ret (ys.filter (fun r => (h.reps r.addr).prio.isSome)), h) := by
  induction ys generalizing xs m g with
  | nil => cases hr; exact .ret hM .nil
  | cons y ys ih =>
    cases hr with
    | cons hxy hr =>
      have hx := hxy
      obtain ⟨hn, ho⟩ := hxy
      rename_i n a cost ins ops ops' v pos
      simp only [List.filter_cons, filterSome]
      refine .repPrio hM hn ?_
      rcases hp : (h.reps n).prio with _ | q
      · exact ih hM hr
      · simp only [Option.isSome_some, if_true]
        exact .bindRet (ih hM hr) fun m' g' zs hm hM' hzs => .ret hM' (.cons (hx.mono hm) hzs)

theorem sim_joinReps (hM : Match m h g) {x y x' y' : HRecovered α} (hr : RRec m x y)
    (hr' : RRec m x' y') :
    Sim (fun m => RList (RRep m)) m g (joinReps x x') (.ret (Heaped.joinReps h y y'), h) := by
  obtain ⟨h1, hreps⟩ := hr
  obtain ⟨h2, hreps'⟩ := hr'
  rename_i n a reps reps' mp loc n1 a1 r1 r2 mp' loc'
  unfold joinReps Heaped.joinReps
  cases mp with
  | none =>
    exact .bindRet (sim_filterSome hM hreps') fun m' g' zs hm hM' hzs =>
      .ret hM' ((RReps.mono hm hreps).append hzs)
  | some k =>
    exact .bindRet (sim_filterBelow hM k hreps') fun m' g' zs hm hM' hzs =>
      .ret hM' ((RReps.mono hm hreps).append hzs)

theorem sim_joinRepairs (hM : Match m h g) {x y x' y' : HRecovered α} (hr : RRec m x y)
    (hr' : RRec m x' y') :
    Sim RRec m g (joinRepairs x x') (Heaped.joinRepairs y y' h) := by
  unfold joinRepairs Heaped.joinRepairs
  refine .hget (.bindRet (sim_joinReps hM hr hr') fun m1 g1 zs hm hM1 hzs => ?_)
  have hmp : Heaped.joinMinPrio x x' = Heaped.joinMinPrio y y' := by
    obtain ⟨_, _⟩ := hr
    obtain ⟨_, _⟩ := hr'
    rfl
  rw [hmp]
  generalize Heaped.joinMinPrio y y' = mp
  generalize Heaped.joinReps h y y' = rs at hzs
  obtain ⟨hn, _⟩ := hr
  obtain ⟨hn', _⟩ := hr'
  have hn := hm _ _ _ hn
  have hn' := hm _ _ _ hn'
  refine .failConsumed hM1 hn ?_
  dsimp only
  cases hc : (h.fails _).consumed with
  | true => exact .failExpected hM1 hn (sim_newRecovered hM1 hzs _ _ _ _)
  | false =>
    refine .failConsumed hM1 hn' ?_
    cases hc' : (h.fails _).consumed with
    | true => exact .failExpected hM1 hn' (sim_newRecovered hM1 hzs _ _ _ _)
    | false =>
      refine .failExpected hM1 hn (.failExpected hM1 hn' (.failConsumed hM1 hn
        (.failConsumed hM1 hn' ?_)))
      rw [hc, hc']
      exact sim_newRecovered hM1 hzs _ _ _ _

/-! ### Returning results -/

theorem sim_retOkS (hM : Match m h g) (v : α) (pos : Nat) (ctx : Ctx τ) (e : List String)
    (b : Bool) : Sim RSimple m g (retOkS v pos ctx e b) (Heaped.retOkS v pos ctx e b h) :=
  Sim.bind (sim_newOk hM _ _ _ _ _) fun _ _ _ _ _ _ hM hab => .ret hM (.ok hab)

theorem sim_retErrS (hM : Match m h g) (loc : Loc) (e : List String) :
    Sim (RSimple (α := α)) m g (retErrS loc e) (Heaped.retErrS loc e h) :=
  Sim.bind (sim_newErr hM _ _ _) fun _ _ _ _ _ _ hM hab => .ret hM (.error hab)

theorem sim_retOk (hM : Match m h g) (v : α) (pos : Nat) (ctx : Ctx τ) (e : List String)
    (b : Bool) : Sim RResult m g (retOk v pos ctx e b) (Heaped.retOk v pos ctx e b h) :=
  Sim.bind (sim_newOk hM _ _ _ _ _) fun _ _ _ _ _ _ hM hab => .ret hM (.ok hab)

theorem sim_retErr (hM : Match m h g) (loc : Loc) (e : List String) :
    Sim (RResult (α := α)) m g (retErr loc e) (Heaped.retErr loc e h) :=
  Sim.bind (sim_newErr hM _ _ _) fun _ _ _ _ _ _ hM hab => .ret hM (.error hab)

theorem sim_retRec (hM : Match m h g) {reps reps' : List (HRepair α)}
    (hr : RList (RRep m) reps reps') (mp : Option Nat) (loc : Loc) (e : List String) :
    Sim RResult m g (retRec reps mp loc e) (Heaped.retRec reps' mp loc e h) :=
  Sim.bind (sim_newRecovered hM hr _ _ _ _) fun _ _ _ _ _ _ hM hab => .ret hM (.recovered hab)

theorem sim_makeInsert (hM : Match m h g) (rem : Int) (v : α) (pos : Nat) (ctx : Ctx τ) (loc : Loc)
    (l : String) (e : List String) :
    Sim RRep m g (makeInsert rem v pos ctx loc l e) (Heaped.makeInsert rem v pos ctx loc l e h) :=
  Sim.bind (sim_newOp hM _ _ _ _) fun _ _ _ _ _ _ hM hab =>
    sim_newRepair hM _ _ _ (.cons hab .nil) _ _ _ _ _

theorem sim_makeUserInsert (hM : Match m h g) (rem : Int) (v : α) (pos : Nat) (ctx : Ctx τ)
    (loc : Loc) (l : String) (e : List String) :
    Sim RRep m g (makeUserInsert rem v pos ctx loc l e)
      (Heaped.makeUserInsert rem v pos ctx loc l e h) :=
  Sim.bind (sim_newOp hM _ _ _ _) fun _ _ _ _ _ _ hM hab =>
    sim_newRepair hM _ _ _ (.cons hab .nil) _ _ _ _ _

theorem sim_makeSkip (hM : Match m h g) (ins : Int) (v : α) (pos : Nat) (ctx : Ctx τ)
    (loc : Loc) (k : Nat) (e : List String) :
    Sim RRep m g (makeSkip ins v pos ctx loc k e) (Heaped.makeSkip ins v pos ctx loc k e h) :=
  Sim.bind (sim_newOp hM _ _ _ _) fun _ _ _ _ _ _ hM hab =>
    sim_newRepair hM _ _ _ (.cons hab .nil) _ _ _ _ _

theorem sim_makePendingSkip (hM : Match m h g) (ins : Int) (v : α) (pos : Nat) (ctx : Ctx τ)
    (loc : Loc) (k : Nat) (e : List String) :
    Sim RRep m g (makePendingSkip ins v pos ctx loc k e)
      (Heaped.makePendingSkip ins v pos ctx loc k e h) :=
  Sim.bind (sim_newOp hM _ _ _ _) fun _ _ _ _ _ _ hM hab =>
    sim_newRepair hM _ _ _ (.cons hab .nil) _ _ _ _ _

theorem sim_insertReps (hM : Match m h g) (rem : Int) (v : α) (pos : Nat) (ctx : Ctx τ)
    (loc : Loc) (l : String) (e : List String) :
    Sim (fun m => RList (RRep m)) m g (insertReps rem v pos ctx loc l e)
      (Heaped.insertReps rem v pos ctx loc l e h) := by
  unfold insertReps Heaped.insertReps
  split
  · exact Sim.bind (sim_makeInsert hM _ _ _ _ _ _ _) fun _ _ _ _ _ _ hM hab =>
      .ret hM (.cons hab .nil)
  · exact .ret hM .nil

end

end Reparsec.Thr
