import Verif.Lemmas.Heap

/-!
# `fmap`, `continue_parse` and `join_repairs` on the heap
-/

namespace Reparsec.Heaped

variable {τ α β γ : Type}

/-! ### `fmap` -/

/-- New `Repair` objects in place of those of `rs`, around the same operations. -/
structure Renewed (h h' : Heap τ) (rs : List (HRepair α)) (qs : List (HRepair β)) : Prop where
  ext : Ext h h'
  reps : ∀ r ∈ qs, h.nReps ≤ r.addr ∧ r.addr < h'.nReps
  repsNodup : (qs.map HRepair.addr).Nodup
  ops : opAddrs qs = opAddrs rs

theorem runs_repFmapM {h0 h : Heap τ} (e : Ext h0 h) (fn : α → Except Exn β) (r : HRepair α) :
    Runs h0 h (r.fmapM fn) ((r.read h).fmapM fn) HRepair.read
      (fun h' r' => Ext h h' ∧ (h.nReps ≤ r'.addr ∧ r'.addr < h'.nReps) ∧ r'.ops = r.ops) := by
  unfold HRepair.fmapM Repair.fmapM
  refine Runs.ofExcept e fun v _ => Runs.get ?_
  refine ⟨e.trans (ext_newRepair h _), ?_, ext_newRepair h _,
    ⟨Nat.le_refl _, Nat.lt_succ_self _⟩, rfl⟩
  simp only [newRepair, HRepair.read, upd_same, Out.pure_def]
  rfl

theorem runs_repairsFmapM (h : Heap τ) (fn : α → Except Exn β) (rs : List (HRepair α))
    (hr : ∀ r ∈ rs, r.addr < h.nReps) (ho : ∀ a ∈ opAddrs rs, a < h.nOps) :
    Runs h h (repairsFmapM fn rs) (Reparsec.repairsFmapM fn (rs.map (HRepair.read h)))
      (fun h l => l.map (HRepair.read h)) (fun h' qs => Renewed h h' rs qs) := by
  induction rs generalizing h with
  | nil => exact Runs.ret (.refl h) rfl ⟨.refl h, by simp, by simp, rfl⟩
  | cons r rs ih =>
    have hr' : ∀ r ∈ rs, r.addr < h.nReps := fun x hx => hr x (List.mem_cons_of_mem _ hx)
    have ho' : ∀ a ∈ opAddrs rs, a < h.nOps := fun a ha => ho a (by simp [ha])
    have hor : ∀ o ∈ r.ops, o.addr < h.nOps := fun o h1 =>
      ho _ (mem_opAddrs List.mem_cons_self h1)
    refine Runs.bind (runs_repFmapM (.refl h) fn r)
      (g := fun w => (Reparsec.repairsFmapM fn (rs.map (HRepair.read h))).bind
          fun ws => .ret (w :: ws)) ?_
    rintro r' h' - ⟨e', hb, hops⟩
    have := ih h' (fun x hx => Nat.lt_of_lt_of_le (hr' x hx) e'.nReps)
      (fun x hx => Nat.lt_of_lt_of_le (ho' x hx) e'.nOps)
    rw [readReps_ext e' rs hr' ho'] at this
    refine Runs.bind (this.call (Own := fun h' h2 qs => Renewed h' h2 rs qs) e')
      (g := fun ws => .ret (r'.read h' :: ws)) ?_
    rintro qs h2 e2 ⟨-, w⟩
    refine Runs.ret e2 ?_ ?_
    · show _ = Out.ret (List.map _ _)
      rw [List.map_cons, readRep_ext w.ext r' hb.2]
      intro o h1
      rw [hops] at h1
      exact Nat.lt_of_lt_of_le (hor o h1) e'.nOps
    · refine ⟨e2, ?_, ?_, ?_⟩
      · intro x hx
        rcases List.mem_cons.1 hx with rfl | hx
        · exact ⟨hb.1, Nat.lt_of_lt_of_le hb.2 w.ext.nReps⟩
        · have := w.reps x hx
          exact ⟨Nat.le_trans e'.nReps this.1, this.2⟩
      · rw [List.map_cons, List.nodup_cons]
        refine ⟨fun hm => ?_, w.repsNodup⟩
        obtain ⟨x, hx, hxe⟩ := List.mem_map.1 hm
        have := (w.reps x hx).1
        have := hb.2
        omega
      · simp only [opAddrs_cons, w.ops, hops]

theorem OwnReps.renewed {h0 h h' : Heap τ} {rs : List (HRepair α)} {qs : List (HRepair β)}
    (e : Ext h0 h) (o : OwnReps h0 h rs) (w : Renewed h h' rs qs) : OwnReps h0 h' qs where
  reps r hr := ⟨Nat.le_trans e.nReps (w.reps r hr).1, (w.reps r hr).2⟩
  ops a ha := by
    rw [w.ops] at ha
    exact ⟨(o.ops a ha).1, Nat.lt_of_lt_of_le (o.ops a ha).2 w.ext.nOps⟩
  repsNodup := w.repsNodup
  opsNodup := by rw [w.ops]; exact o.opsNodup

section Fmap

variable {h0 h : Heap τ}

theorem runs_okFmapM (e : Ext h0 h) (fn : α → Except Exn β) (r : HOk α) :
    Runs h0 h (r.fmapM fn) ((r.read h).fmapM fn) HOk.read
      (fun h' r => h0.nOks ≤ r.addr ∧ r.addr < h'.nOks) := by
  unfold HOk.fmapM Ok.fmapM
  refine Runs.ofExcept e fun v _ => Runs.get ?_
  refine ⟨e.trans (ext_newOk h _), ?_, e.nOks, Nat.lt_succ_self _⟩
  simp [newOk, HOk.read]

theorem runs_fmapMS (e : Ext h0 h) (fn : α → Except Exn β) {r : HSimple α}
    (hr : OwnS h0 h r) :
    Runs h0 h (r.fmapM fn) ((r.read h).fmapM fn) HSimple.read (OwnS h0) := by
  cases r with
  | ok r =>
    refine Runs.bind (runs_okFmapM e fn r) (g := fun w => .ret (Simple.ok w)) fun a h' e w => ?_
    exact Runs.ret (Own := OwnS h0) e rfl w
  | error r => exact Runs.ret (Own := OwnS h0) e rfl hr

theorem runs_fmapM (e : Ext h0 h) (fn : α → Except Exn β) {r : HResult α}
    (hr : OwnR h0 h r) :
    Runs h0 h (r.fmapM fn) ((r.read h).fmapM fn) HResult.read (OwnR h0) := by
  cases r with
  | ok r =>
    refine Runs.bind (runs_okFmapM e fn r) (g := fun w => .ret (Result.ok w)) fun a h' e w => ?_
    exact Runs.ret (Own := OwnR h0) e rfl w
  | error r => exact Runs.ret (Own := OwnR h0) e rfl hr
  | recovered r =>
    have h1 := runs_repairsFmapM h fn r.repairs (fun x hx => (hr.2.reps x hx).2)
      (fun x hx => (hr.2.ops x hx).2)
    refine Runs.bind (h1.base e)
      (g := fun reps => .ret (Result.recovered ⟨reps, r.minPrio, r.loc, (h.fails r.addr).expected,
        (h.fails r.addr).consumed⟩)) ?_
    intro qs h' e' w
    refine Runs.get ?_
    rw [w.ext.fails _ hr.1.2]
    exact Runs.bind (o := .ret _) (g := fun w => .ret (Result.recovered w))
      (runs_newRecovered e' (OwnReps.renewed e hr.2 w) _ _ _ _ rfl)
      (fun _ _ e hw => Runs.ret (Own := OwnR h0) e rfl hw)

end Fmap

/-! ### `_join_ops` -/

theorem bind_ret {m : HM τ α} {f : α → HM τ β} {h h' : Heap τ} {a : α}
    (hm : m h = (.ret a, h')) : (m >>= f) h = f a h' := by
  show HM.bind m f h = _
  unfold HM.bind
  rw [hm]


theorem copyOps_spec (is : List HOp) (h : Heap τ) (hi : ∀ o ∈ is, o.addr < h.nOps) :
    ∃ os h', copyOps is h = (.ret os, h') ∧ Ext h h' ∧
      os.map (HOp.read h') = is.map (HOp.read h) ∧
      (∀ o ∈ os, h.nOps ≤ o.addr ∧ o.addr < h'.nOps) ∧ (os.map HOp.addr).Nodup := by
  induction is generalizing h with
  | nil => exact ⟨[], h, rfl, .refl h, rfl, by simp, by simp⟩
  | cons i is ih =>
    let c : OpCell := ⟨(h.ops i.addr).expected, (h.ops i.addr).consumed⟩
    let h1 : Heap τ := { h with nOps := h.nOps + 1, ops := upd h.ops h.nOps c }
    have e1 : Ext h h1 := ext_newOp h c
    have hi' : ∀ o ∈ is, o.addr < h.nOps := fun o ho => hi o (List.mem_cons_of_mem _ ho)
    obtain ⟨os, h2, hc, e2, hrd, hb, hn⟩ := ih h1 fun o ho =>
      Nat.lt_of_lt_of_le (hi' o ho) e1.nOps
    refine ⟨⟨h.nOps, i.op, i.loc⟩ :: os, h2, ?_, e1.trans e2, ?_, ?_, ?_⟩
    · exact bind_ret (m := copyOps is) hc
    · rw [List.map_cons, List.map_cons, hrd]
      congr 1
      · have : h2.ops h.nOps = h1.ops h.nOps := e2.ops _ (Nat.lt_succ_self _)
        simp only [HOp.read, this, h1, upd_same, c]
      · refine List.map_congr_left fun o ho => ?_
        have := e1.ops _ (hi' o ho)
        simp only [HOp.read, this]
    · intro o ho
      rcases List.mem_cons.1 ho with rfl | ho
      · exact ⟨Nat.le_refl _, Nat.lt_of_lt_of_le (Nat.lt_succ_self _) e2.nOps⟩
      · exact ⟨Nat.le_trans e1.nOps (hb o ho).1, (hb o ho).2⟩
    · rw [List.map_cons, List.nodup_cons]
      refine ⟨fun hm => ?_, hn⟩
      obtain ⟨x, hx, hxe⟩ := List.mem_map.1 hm
      have := (hb x hx).1
      have h3 : x.addr = h.nOps := hxe
      have h4 : h1.nOps = h.nOps + 1 := rfl
      omega

/-- `h'` was obtained from `h` by allocating and by changing operations at addresses in `l`. -/
structure ExtBut (l : List Nat) (h h' : Heap τ) : Prop where
  nOps : h.nOps ≤ h'.nOps
  ops : ∀ a, a < h.nOps → a ∉ l → h'.ops a = h.ops a
  nReps : h.nReps ≤ h'.nReps
  reps : ∀ a, a < h.nReps → h'.reps a = h.reps a
  nOks : h.nOks ≤ h'.nOks
  oks : ∀ a, a < h.nOks → h'.oks a = h.oks a
  nFails : h.nFails ≤ h'.nFails
  fails : ∀ a, a < h.nFails → h'.fails a = h.fails a

theorem ExtBut.toExt {l : List Nat} {h0 h h' : Heap τ} (e : Ext h0 h) (b : ExtBut l h h')
    (hl : ∀ a ∈ l, h0.nOps ≤ a) : Ext h0 h' where
  nOps := Nat.le_trans e.nOps b.nOps
  ops a ha := (b.ops a (Nat.lt_of_lt_of_le ha e.nOps)
    fun h1 => by have := hl a h1; omega).trans (e.ops a ha)
  nReps := Nat.le_trans e.nReps b.nReps
  reps a ha := (b.reps a (Nat.lt_of_lt_of_le ha e.nReps)).trans (e.reps a ha)
  nOks := Nat.le_trans e.nOks b.nOks
  oks a ha := (b.oks a (Nat.lt_of_lt_of_le ha e.nOks)).trans (e.oks a ha)
  nFails := Nat.le_trans e.nFails b.nFails
  fails a ha := (b.fails a (Nat.lt_of_lt_of_le ha e.nFails)).trans (e.fails a ha)

theorem ExtBut.trans {l m : List Nat} {h0 h1 h2 : Heap τ} (a : ExtBut l h0 h1)
    (b : ExtBut m h1 h2) : ExtBut (l ++ m) h0 h2 where
  nOps := Nat.le_trans a.nOps b.nOps
  ops x hx hn := by
    simp only [List.mem_append, not_or] at hn
    exact (b.ops x (Nat.lt_of_lt_of_le hx a.nOps) hn.2).trans (a.ops x hx hn.1)
  nReps := Nat.le_trans a.nReps b.nReps
  reps x hx := (b.reps x (Nat.lt_of_lt_of_le hx a.nReps)).trans (a.reps x hx)
  nOks := Nat.le_trans a.nOks b.nOks
  oks x hx := (b.oks x (Nat.lt_of_lt_of_le hx a.nOks)).trans (a.oks x hx)
  nFails := Nat.le_trans a.nFails b.nFails
  fails x hx := (b.fails x (Nat.lt_of_lt_of_le hx a.nFails)).trans (a.fails x hx)

theorem readRep_extBut {l : List Nat} {h h' : Heap τ} (e : ExtBut l h h') (r : HRepair α)
    (hr : r.addr < h.nReps) (ho : ∀ o ∈ r.ops, o.addr < h.nOps ∧ o.addr ∉ l) :
    r.read h' = r.read h := by
  unfold HRepair.read
  rw [e.reps _ hr]
  congr 1
  refine List.map_congr_left fun o h1 => ?_
  unfold HOp.read
  rw [e.ops _ (ho o h1).1 (ho o h1).2]

theorem joinOps_spec (h : Heap τ) (r : HRepair α) (rr : HRepair β) (hr : r.addr < h.nReps)
    (ho : ∀ o ∈ r.ops, o.addr < h.nOps) (hb : ∀ o ∈ rr.ops, o.addr < h.nOps)
    (hn : (rr.ops.map HOp.addr).Nodup) :
    ∃ os h', joinOps r rr h = (.ret os, h') ∧ ExtBut (rr.ops.map HOp.addr) h h' ∧
      os.map (HOp.read h') = Reparsec.joinOps (r.read h) (rr.read h) ∧
      (∀ a ∈ os.map HOp.addr, (h.nOps ≤ a ∨ a ∈ rr.ops.map HOp.addr) ∧ a < h'.nOps) ∧
      (os.map HOp.addr).Nodup := by
  obtain ⟨os, h1, hc, e1, hrd, hbnd, hnd⟩ := copyOps_spec r.ops h ho
  let L := rr.ops.map HOp.addr
  let ex := (h.reps r.addr).expected
  let cs := (h.reps r.addr).consumed
  let h2 := mapOps L (OpCell.prepend ex cs) h1
  have hdisj : ∀ o ∈ os, o.addr ∉ L := fun o ho' hm => by
    obtain ⟨x, hx, hxe⟩ := List.mem_map.1 hm
    have := (hbnd o ho').1
    have := hb x hx
    omega
  have hL : (rr.ops.map HOp.addr).Nodup := hn
  refine ⟨os ++ rr.ops, h2, ?_, ?_, ?_, ?_, ?_⟩
  · refine (bind_ret (m := copyOps r.ops) hc).trans ?_
    show (Out.ret (os ++ rr.ops), opsPrependExpected (h1.reps r.addr).expected
      (h1.reps r.addr).consumed rr.ops h1) = _
    rw [opsPrependExpected_eq _ _ _ _ hn, e1.reps _ hr]
  · constructor
    · exact e1.nOps
    · intro a ha hna
      have : h2.ops a = h1.ops a := by
        show (if a ∈ L then _ else _) = _
        rw [if_neg hna]
      rw [this, e1.ops a ha]
    · exact e1.nReps
    · exact e1.reps
    · exact e1.nOks
    · exact e1.oks
    · exact e1.nFails
    · exact e1.fails
  · rw [Reparsec.joinOps, List.map_append]
    congr 1
    · have : os.map (HOp.read h2) = os.map (HOp.read h1) := by
        refine List.map_congr_left fun o ho' => ?_
        have : h2.ops o.addr = h1.ops o.addr := by
          show (if o.addr ∈ L then _ else _) = _
          rw [if_neg (hdisj o ho')]
        simp only [HOp.read, this]
      rw [this, hrd]
      rfl
    · rw [Reparsec.opsPrependExpected]
      show _ = List.map _ (rr.ops.map (HOp.read h))
      rw [List.map_map]
      refine List.map_congr_left fun o ho' => ?_
      have hm : o.addr ∈ L := List.mem_map_of_mem ho'
      refine (readOp_mapOps (f := OpCell.prepend ex cs) (h := h1) hm).trans ?_
      rw [e1.ops _ (hb o ho')]
      simp only [Function.comp, OpItem.prependExpected, HOp.read, OpCell.prepend, HRepair.read]
      by_cases hcc : (h.ops o.addr).consumed = true <;> simp [hcc, ex, cs]
  · intro a ha
    rw [List.map_append, List.mem_append] at ha
    rcases ha with ha | ha
    · obtain ⟨o, ho', rfl⟩ := List.mem_map.1 ha
      exact ⟨.inl (hbnd o ho').1, (hbnd o ho').2⟩
    · obtain ⟨o, ho', rfl⟩ := List.mem_map.1 ha
      exact ⟨.inr ha, Nat.lt_of_lt_of_le (hb o ho') e1.nOps⟩
  · rw [List.map_append, List.nodup_append]
    refine ⟨hnd, hn, ?_⟩
    rintro a ha b hb' rfl
    obtain ⟨o, ho', rfl⟩ := List.mem_map.1 ha
    exact hdisj o ho' hb'

/-! ### `continue_parse` -/

/-- What a repair `rr` of the continuation contributes, `core/recovery.py:35-43`. -/
def contRep (merge : α → β → γ) (r : Repair τ α) (rr : Repair τ β) : Repair τ γ :=
  { cost := r.cost + rr.cost, prio := r.prio, ins := rr.ins, ops := Reparsec.joinOps r rr,
    value := merge r.value rr.value, pos := rr.pos, ctx := rr.ctx,
    expected := Reparsec.appendExpected r rr.expected rr.consumed,
    consumed := r.consumed || rr.consumed }

theorem contInner_spec (merge : α → β → γ) (r : HRepair α) (rrs : List (HRepair β)) (h : Heap τ)
    (hr : r.addr < h.nReps) (hro : ∀ o ∈ r.ops, o.addr < h.nOps ∧ o.addr ∉ opAddrs rrs)
    (hb : ∀ rr ∈ rrs, rr.addr < h.nReps) (hbo : ∀ a ∈ opAddrs rrs, a < h.nOps)
    (hn : (opAddrs rrs).Nodup) :
    ∃ xs h', contInner merge r rrs h = (.ret xs, h') ∧ ExtBut (opAddrs rrs) h h' ∧
      xs.map (HRepair.read h') = (rrs.map (HRepair.read h)).map (contRep merge (r.read h)) ∧
      (∀ x ∈ xs, h.nReps ≤ x.addr ∧ x.addr < h'.nReps) ∧
      (∀ a ∈ opAddrs xs, (h.nOps ≤ a ∨ a ∈ opAddrs rrs) ∧ a < h'.nOps) ∧
      (xs.map HRepair.addr).Nodup ∧ (opAddrs xs).Nodup := by
  induction rrs generalizing h with
  | nil =>
    exact ⟨[], h, rfl, ⟨Nat.le_refl _, fun _ _ _ => rfl, Nat.le_refl _, fun _ _ => rfl,
      Nat.le_refl _, fun _ _ => rfl, Nat.le_refl _, fun _ _ => rfl⟩, rfl, by simp, by simp,
      by simp, by simp⟩
  | cons rr rrs ih =>
    simp only [opAddrs_cons, List.nodup_append] at hn
    obtain ⟨hn1, hn2, hn3⟩ := hn
    have hrr : rr.addr < h.nReps := hb rr List.mem_cons_self
    obtain ⟨os, h1, hj, e1, hrd1, hbd1, hnd1⟩ := joinOps_spec h r rr hr (fun o ho => (hro o ho).1)
      (fun o ho => hbo _ (mem_opAddrs List.mem_cons_self ho)) hn1
    -- the new repair
    let c : RepCell τ := ⟨(h1.reps r.addr).prio, (h1.reps rr.addr).ctx,
      appendExpected h1 r (h1.reps rr.addr).expected (h1.reps rr.addr).consumed,
      (h1.reps r.addr).consumed || (h1.reps rr.addr).consumed⟩
    let h2 : Heap τ := { h1 with nReps := h1.nReps + 1, reps := upd h1.reps h1.nReps c }
    have e2 : Ext h1 h2 := ext_newRepair h1 c
    let x : HRepair γ := ⟨h1.nReps, r.cost + rr.cost, rr.ins, os, merge r.value rr.value, rr.pos⟩
    have e12 : ExtBut (rr.ops.map HOp.addr) h h2 := by
      have := e1.trans (m := []) (h2 := h2) ⟨e2.nOps, fun a ha _ => e2.ops a ha, e2.nReps, e2.reps,
        e2.nOks, e2.oks, e2.nFails, e2.fails⟩
      rwa [List.append_nil] at this
    have hxr : x.read h2 = contRep merge (r.read h) (rr.read h) := by
      have ho : x.ops.map (HOp.read h2) = Reparsec.joinOps (r.read h) (rr.read h) := by
        rw [← hrd1]; rfl
      unfold HRepair.read
      rw [ho]
      simp only [contRep, x, h2, upd_same, c, appendExpected, Reparsec.appendExpected,
        e1.reps _ hr, e1.reps _ hrr, HRepair.read]
    -- the other repairs
    have hdis : ∀ a ∈ opAddrs rrs, a ∉ rr.ops.map HOp.addr := fun a ha hm =>
      hn3 a hm a ha rfl
    have hb' : ∀ q ∈ rrs, q.addr < h.nReps := fun q hq => hb q (List.mem_cons_of_mem _ hq)
    have hbo' : ∀ a ∈ opAddrs rrs, a < h.nOps := fun a ha => hbo a (by simp [ha])
    have hrrd : r.read h2 = r.read h := readRep_extBut e12 r hr fun o ho =>
      ⟨(hro o ho).1, fun hm => (hro o ho).2 (by simp only [opAddrs_cons, List.mem_append]; exact .inl hm)⟩
    have hqrd : rrs.map (HRepair.read h2) = rrs.map (HRepair.read h) :=
      List.map_congr_left fun q hq => readRep_extBut e12 q (hb' q hq) fun o ho =>
        ⟨hbo' _ (mem_opAddrs hq ho), hdis _ (mem_opAddrs hq ho)⟩
    obtain ⟨xs, h3, hi, e3, hrd3, hbr3, hbd3, hnr3, hnd3⟩ := ih h2
      (Nat.lt_of_lt_of_le hr e12.nReps)
      (fun o ho => ⟨Nat.lt_of_lt_of_le (hro o ho).1 e12.nOps, fun hm => (hro o ho).2
        (by simp only [opAddrs_cons, List.mem_append]; exact .inr hm)⟩)
      (fun q hq => Nat.lt_of_lt_of_le (hb' q hq) e12.nReps)
      (fun a ha => Nat.lt_of_lt_of_le (hbo' a ha) e12.nOps) hn2
    rw [hrrd, hqrd] at hrd3
    have hxo : ∀ o ∈ x.ops, o.addr < h2.nOps ∧ o.addr ∉ opAddrs rrs := by
      intro o ho
      have := hbd1 o.addr (List.mem_map_of_mem ho)
      refine ⟨this.2, fun hm => ?_⟩
      rcases this.1 with h' | h'
      · have := hbo' _ hm; omega
      · exact hdis _ hm h'
    refine ⟨x :: xs, h3, ?_, ?_, ?_, ?_, ?_, ?_, ?_⟩
    · refine (bind_ret (m := joinOps r rr) hj).trans ?_
      exact bind_ret (m := contInner merge r rrs) hi
    · exact e12.trans e3
    · rw [List.map_cons, List.map_cons, List.map_cons, hrd3,
        readRep_extBut e3 x (Nat.lt_succ_self _) hxo, hxr]
    · intro y hy
      have h12 := e1.nReps
      have h23 := e3.nReps
      have h22 : h2.nReps = h1.nReps + 1 := rfl
      have hxa : x.addr = h1.nReps := rfl
      rcases List.mem_cons.1 hy with rfl | hy
      · omega
      · have := hbr3 y hy; omega
    · intro a ha
      simp only [opAddrs_cons, List.mem_append] at ha ⊢
      have h12 := e1.nOps
      have h23 := e3.nOps
      have h22 : h2.nOps = h1.nOps := rfl
      rcases ha with ha | ha
      · have := hbd1 a ha
        rcases this with ⟨h' | h', h''⟩
        · exact ⟨.inl h', by omega⟩
        · exact ⟨.inr (.inl h'), by omega⟩
      · have := hbd3 a ha
        rcases this with ⟨h' | h', h''⟩
        · exact ⟨.inl (by omega), by omega⟩
        · exact ⟨.inr (.inr h'), by omega⟩
    · rw [List.map_cons, List.nodup_cons]
      refine ⟨fun hm => ?_, hnr3⟩
      obtain ⟨y, hy, hye⟩ := List.mem_map.1 hm
      have := hbr3 y hy
      have h22 : h2.nReps = h1.nReps + 1 := rfl
      have hxa : x.addr = h1.nReps := rfl
      omega
    · rw [opAddrs_cons, List.nodup_append]
      refine ⟨hnd1, hnd3, ?_⟩
      rintro a ha b hb2 rfl
      obtain ⟨o, ho, rfl⟩ := List.mem_map.1 ha
      have := hbd3 _ hb2
      have hxo' := hxo o ho
      rcases this.1 with h' | h'
      · omega
      · exact hxo'.2 h'

/-- What the loop of `continue_parse` leaves: new `Repair` objects, whose operations are new or
those of the repairs `rs` it went through. -/
structure Continued (h h' : Heap τ) (rs : List (HRepair α)) (xs : List (HRepair γ)) : Prop where
  ext : Ext h h'
  reps : ∀ r ∈ xs, h.nReps ≤ r.addr ∧ r.addr < h'.nReps
  ops : ∀ a ∈ opAddrs xs, (h.nOps ≤ a ∨ a ∈ opAddrs rs) ∧ a < h'.nOps
  repsNodup : (xs.map HRepair.addr).Nodup
  opsNodup : (opAddrs xs).Nodup

/-- The loop body of `continue_parse`: `hb` is the heap before the continuation was run. -/
theorem runs_contOne {hb h : Heap τ} (e : Ext hb h) (ins : Int) (merge : α → β → γ)
    (r : HRepair α) (hr : r.addr < hb.nReps) (ho : ∀ o ∈ r.ops, o.addr < hb.nOps)
    (hn : (r.ops.map HOp.addr).Nodup) {rb : HResult β} (hrb : OwnR hb h rb) :
    Runs hb h (contOne ins merge r rb)
      (.ret (Reparsec.contOne ins merge (r.read hb) (rb.read h)))
      (fun h l => l.map (HRepair.read h)) (fun h' xs => Continued hb h' [r] xs) := by
  have hrd : r.read h = r.read hb := readRep_ext e r hr ho
  rw [← hrd]
  cases rb with
  | error eb => exact Runs.ret e rfl ⟨e, by simp, by simp, by simp, by simp⟩
  | ok rb =>
    refine ⟨e.trans (ext_newRepair h _), ?_, ?_⟩
    · simp [contOne, Reparsec.contOne, newRepair, HRepair.read, HResult.read, HOk.read,
        appendExpected, Reparsec.appendExpected, Bind.bind, HM.bind, HM.get, Pure.pure]
      exact ⟨rfl, fun _ _ => rfl⟩
    · refine ⟨e.trans (ext_newRepair h _), ?_, ?_, ?_, ?_⟩
      · intro x hx
        have hx : x ∈ [_] := hx
        simp only [List.mem_singleton] at hx
        subst hx
        exact ⟨e.nReps, Nat.lt_succ_self _⟩
      · intro a ha
        have ha : a ∈ r.ops.map HOp.addr ++ [] := ha
        rw [List.append_nil] at ha
        obtain ⟨o, ho', rfl⟩ := List.mem_map.1 ha
        refine ⟨.inr (by simpa using ⟨o, ho', rfl⟩), Nat.lt_of_lt_of_le (ho o ho') e.nOps⟩
      · exact (List.nodup_cons.2 ⟨by simp, List.nodup_nil⟩ : [h.nReps].Nodup)
      · show (r.ops.map HOp.addr ++ []).Nodup
        rwa [List.append_nil]
  | recovered rb =>
    obtain ⟨xs, h', hi, e', hrd', hbr, hbd, hnr, hnd⟩ := contInner_spec merge r rb.repairs h
      (Nat.lt_of_lt_of_le hr e.nReps)
      (fun o ho' => ⟨Nat.lt_of_lt_of_le (ho o ho') e.nOps, fun hm => by
        have := (hrb.2.ops _ hm).1; have := ho o ho'; omega⟩)
      (fun x hx => (hrb.2.reps x hx).2) (fun a ha => (hrb.2.ops a ha).2) hrb.2.opsNodup
    have e2 : Ext hb h' := e'.toExt e fun a ha => (hrb.2.ops a ha).1
    have hh : contOne ins merge r (.recovered rb) h = (.ret xs, h') := hi
    refine ⟨?_, ?_⟩
    · rw [hh]; exact e2
    · rw [hh]
      refine ⟨?_, e2, ?_, ?_, hnr, hnd⟩
      · exact congrArg Out.ret (Eq.trans rfl hrd'.symm)
      · exact fun x hx => ⟨Nat.le_trans e.nReps (hbr x hx).1, (hbr x hx).2⟩
      · intro a ha
        rcases hbd a ha with ⟨h1 | h1, h2⟩
        · exact ⟨.inl (Nat.le_trans e.nOps h1), h2⟩
        · exact ⟨.inl (hrb.2.ops a h1).1, h2⟩

theorem runs_contReps (ins : Int) (parse : α → Nat → Ctx τ → Int → HM τ (HResult β))
    (parse' : α → Nat → Ctx τ → Int → Out (Result τ β))
    (hp : ∀ v p c r h, Runs h h (parse v p c r) (parse' v p c r) HResult.read (OwnR h))
    (merge : α → β → γ) (rs : List (HRepair α)) (h : Heap τ)
    (hr : ∀ r ∈ rs, r.addr < h.nReps) (ho : ∀ a ∈ opAddrs rs, a < h.nOps)
    (hn : (opAddrs rs).Nodup) :
    Runs h h (contReps ins parse merge rs)
      (Reparsec.contReps ins parse' merge (rs.map (HRepair.read h)))
      (fun h l => l.map (HRepair.read h)) (fun h' xs => Continued h h' rs xs) := by
  induction rs generalizing h with
  | nil => exact Runs.ret (.refl h) rfl ⟨.refl h, by simp, by simp, by simp, by simp⟩
  | cons r rs ih =>
    have hn' := nodup_head hn
    have hr1 : r.addr < h.nReps := hr r List.mem_cons_self
    have ho1 : ∀ o ∈ r.ops, o.addr < h.nOps := fun o h1 =>
      ho _ (mem_opAddrs List.mem_cons_self h1)
    have hr' : ∀ r ∈ rs, r.addr < h.nReps := fun x hx => hr x (List.mem_cons_of_mem _ hx)
    have ho' : ∀ a ∈ opAddrs rs, a < h.nOps := fun a ha => ho a (by simp [ha])
    refine Runs.get ?_
    refine Runs.bind (hp r.value r.pos (h.reps r.addr).ctx r.ins h)
      (g := fun rb => (Reparsec.contReps ins parse' merge (rs.map (HRepair.read h))).bind
        fun rest => .ret (Reparsec.contOne ins merge (r.read h) rb ++ rest)) ?_
    intro rb h1 e1 hrb
    refine (Runs.bind (o := .ret (Reparsec.contOne ins merge (r.read h) (rb.read h1)))
      (runs_contOne e1 ins merge r hr1 ho1 hn'.1 hrb)
      (g := fun xs => (Reparsec.contReps ins parse' merge (rs.map (HRepair.read h))).bind
        fun rest => .ret (xs ++ rest)) ?_ :)
    intro xs h2 e2 hxs
    have := ih h2 (fun x hx => Nat.lt_of_lt_of_le (hr' x hx) e2.nReps)
      (fun a ha => Nat.lt_of_lt_of_le (ho' a ha) e2.nOps) hn'.2
    rw [readReps_ext e2 rs hr' ho'] at this
    refine Runs.bind (this.base e2) (g := fun rest => .ret (xs.map (HRepair.read h2) ++ rest)) ?_
    intro ys h3 e3 hys
    refine Runs.ret e3 ?_ ?_
    · show Out.ret _ = Out.ret (List.map _ _)
      rw [List.map_append, readReps_ext hys.ext xs (fun x hx => (hxs.reps x hx).2)
        (fun a ha => (hxs.ops a ha).2)]
    · have e23 := hys.ext
      have n2 := e2.nOps
      have n3 := e23.nOps
      have m2 := e2.nReps
      have m3 := e23.nReps
      refine ⟨e3, ?_, ?_, ?_, ?_⟩
      · intro x hx
        rcases List.mem_append.1 hx with hx | hx
        · have := hxs.reps x hx; omega
        · have := hys.reps x hx; omega
      · intro a ha
        rw [opAddrs_append, List.mem_append] at ha
        rw [opAddrs_cons, List.mem_append]
        rcases ha with ha | ha
        · rcases hxs.ops a ha with ⟨h' | h', h''⟩
          · exact ⟨.inl h', by omega⟩
          · simp only [opAddrs_cons, opAddrs_nil, List.append_nil] at h'
            exact ⟨.inr (.inl h'), by omega⟩
        · rcases hys.ops a ha with ⟨h' | h', h''⟩
          · exact ⟨.inl (by omega), by omega⟩
          · exact ⟨.inr (.inr h'), by omega⟩
      · rw [List.map_append, List.nodup_append]
        refine ⟨hxs.repsNodup, hys.repsNodup, fun a ha b hb hab => ?_⟩
        obtain ⟨x, hx, rfl⟩ := List.mem_map.1 ha
        obtain ⟨y, hy, rfl⟩ := List.mem_map.1 hb
        have := hxs.reps x hx
        have := hys.reps y hy
        omega
      · rw [opAddrs_append, List.nodup_append]
        refine ⟨hxs.opsNodup, hys.opsNodup, ?_⟩
        rintro a ha b hb rfl
        simp only [opAddrs_cons, List.nodup_append] at hn
        have h1 := hxs.ops a ha
        have h2 := hys.ops a hb
        rcases h2.1 with h' | h'
        · omega
        · rcases h1.1 with h'' | h''
          · have := ho' a h'; omega
          · simp only [opAddrs_cons, opAddrs_nil, List.append_nil] at h''
            exact hn.2.2 a h'' a h' rfl

theorem runs_continueParse {h0 h : Heap τ} (e : Ext h0 h) {ra : HRecovered α}
    (hra : OwnR h0 h (.recovered ra)) (ins : Int)
    (parse : α → Nat → Ctx τ → Int → HM τ (HResult β))
    (parse' : α → Nat → Ctx τ → Int → Out (Result τ β))
    (hp : ∀ v p c r h, Runs h h (parse v p c r) (parse' v p c r) HResult.read (OwnR h))
    (merge : α → β → γ) :
    Runs h0 h (continueParse ra ins parse merge)
      (Reparsec.continueParse (ra.read h) ins parse' merge) HResult.read (OwnR h0) := by
  have := runs_contReps ins parse parse' hp merge ra.repairs h
    (fun x hx => (hra.2.reps x hx).2) (fun x hx => (hra.2.ops x hx).2) hra.2.opsNodup
  refine Runs.bind (this.base e) (g := fun reps => .ret (Result.recovered
    ⟨reps, ra.minPrio, ra.loc, (h.fails ra.addr).expected, (h.fails ra.addr).consumed⟩)) ?_
  intro xs h1 e1 hxs
  refine Runs.get ?_
  rw [hxs.ext.fails _ hra.1.2]
  have ho : OwnReps h0 h1 xs := by
    refine ⟨?_, ?_, hxs.repsNodup, hxs.opsNodup⟩
    · exact fun x hx => ⟨Nat.le_trans e.nReps (hxs.reps x hx).1, (hxs.reps x hx).2⟩
    · intro a ha
      rcases hxs.ops a ha with ⟨h' | h', h''⟩
      · exact ⟨Nat.le_trans e.nOps h', h''⟩
      · exact ⟨(hra.2.ops a h').1, h''⟩
  exact Runs.bind (o := .ret _) (g := fun w => .ret (Result.recovered w))
    (runs_newRecovered e1 ho _ _ _ _ rfl)
    (fun _ _ e hw => Runs.ret (Own := OwnR h0) e rfl hw)

/-! ### `join_repairs` -/

theorem opAddrs_sublist {rs qs : List (HRepair α)} (h : rs.Sublist qs) :
    (opAddrs rs).Sublist (opAddrs qs) := by
  induction h with
  | slnil => exact List.Sublist.refl _
  | cons q _ ih => exact ih.trans (List.sublist_append_right _ _)
  | cons_cons q _ ih => exact ih.append_left _

theorem runs_joinRepairs {h0 h1 h : Heap τ} (e0 : Ext h0 h1) (e : Ext h1 h) {ra rb : HRecovered α}
    (ha : OwnR h0 h1 (.recovered ra)) (hb : OwnR h1 h (.recovered rb)) :
    Runs h0 h (joinRepairs ra rb) (.ret (Reparsec.joinRepairs (ra.read h) (rb.read h)))
      HRecovered.read
      (fun h' r => (h0.nFails ≤ r.addr ∧ r.addr < h'.nFails) ∧ OwnReps h0 h' r.repairs) := by
  have e' := e0.trans e
  have hf : ∀ f : HRepair α → Bool, OwnReps h0 h (ra.repairs ++ rb.repairs.filter f) := by
    intro f
    have hbf : OwnReps h1 h (rb.repairs.filter f) := by
      have hs : (rb.repairs.filter f).Sublist rb.repairs := List.filter_sublist
      refine ⟨fun r hr => hb.2.reps r (hs.subset hr), fun a ha => ?_,
        hb.2.repsNodup.sublist (hs.map _), hb.2.opsNodup.sublist (opAddrs_sublist hs)⟩
      exact hb.2.ops a ((opAddrs_sublist hs).subset ha)
    exact ha.2.append hbf e0 e
  have hrd : joinReps h ra rb = joinReps h ra rb ∧ OwnReps h0 h (joinReps h ra rb) ∧
      (joinReps h ra rb).map (HRepair.read h) = Reparsec.joinReps (ra.read h) (rb.read h) := by
    refine ⟨rfl, ?_, ?_⟩
    · unfold joinReps
      split <;> exact hf _
    · unfold joinReps Reparsec.joinReps
      have hmp : (ra.read h).minPrio = ra.minPrio := rfl
      rw [hmp]
      cases ra.minPrio with
      | some m =>
        simp only [List.map_append]
        congr 1
        exact (List.filter_map (f := HRepair.read h) (p := Reparsec.prioBelow m)
          (l := rb.repairs)).symm
      | none =>
        simp only [List.map_append]
        congr 1
        exact (List.filter_map (f := HRepair.read h) (p := fun r : Repair τ α => r.prio.isSome)
          (l := rb.repairs)).symm
  obtain ⟨-, how, hrd⟩ := hrd
  have hmp : joinMinPrio ra rb = Reparsec.joinMinPrio (ra.read h) (rb.read h) := rfl
  unfold joinRepairs Reparsec.joinRepairs
  refine Runs.get ?_
  have hca : (ra.read h).consumed = (h.fails ra.addr).consumed := rfl
  have hcb : (rb.read h).consumed = (h.fails rb.addr).consumed := rfl
  rw [hca, hcb, ← hrd, ← hmp]
  by_cases h1 : (h.fails ra.addr).consumed = true
  · rw [if_pos h1, if_pos h1]
    exact runs_newRecovered e' how _ _ _ _ rfl
  · rw [if_neg h1, if_neg h1]
    by_cases h2 : (h.fails rb.addr).consumed = true
    · rw [if_pos h2, if_pos h2]
      exact runs_newRecovered e' how _ _ _ _ rfl
    · rw [if_neg h2, if_neg h2]
      exact runs_newRecovered e' how _ _ _ _ rfl

end Reparsec.Heaped
