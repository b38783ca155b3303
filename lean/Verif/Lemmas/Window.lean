import Verif.Model.Window
import Verif.Props.C93_Protocols
import Verif.Props.C70_Echo
set_option autoImplicit false
namespace StAsio

/-- If the kernel can take bytes it can take one. -/
theorem Tx.transfer_one {batch : Nat} {s s' : Tx} {i k : Nat} {es : List TxEv} (h : s.step batch (.transfer i k) = some (s', es)) : ∃ s'' fs, s.step batch (.transfer i 1) = some (s'', fs) := by
  simp only [Tx.step, Option.bind_eq_bind, Option.bind_eq_some_iff] at h
  obtain ⟨w, hw, h⟩ := h
  split at h
  · cases h
  · next hk =>
    simp only [Tx.step, Option.bind_eq_bind, hw, Option.bind_some]
    rw [if_neg (by omega)]
    exact ⟨_, _, rfl⟩

/-- The step a sender can take needs room for one byte at most. -/
theorem Tx.progress_one (batch : Nat) (s : Tx) (hi : s.Inv) (h : ¬ s.Quiet) : ∃ a s' es, TxAct.Internal a ∧ s.step batch a = some (s', es) ∧ ∀ i k, a = .transfer i k → k = 1 := by
  obtain ⟨a, s', es, h1, h2⟩ := Tx.progress batch s hi h
  cases a with
  | transfer i k =>
    obtain ⟨s'', fs, h3⟩ := Tx.transfer_one h2
    exact ⟨.transfer i 1, s'', fs, trivial, h3, fun _ _ hh => by cases hh; rfl⟩
  | _ => exact ⟨_, s', es, h1, h2, fun _ _ hh => by cases hh⟩

/-! ### one direction, every protocol -/

section
variable {K : Codec} {cwf : Bool} {w : Item → Bytes} {Ok : Item → Prop} {May : SendCall → Prop} {Shown : List Item → Nat → List Bytes → Prop} {Inv : Bytes → Conn K.σ → Prop} {batch limit W : Nat}

theorem GPipe.wstep_step {s s' : GPipe K} {a : PAct} {es : List PEv} (h : s.wstep W cwf batch limit a = some (s', es)) : s.step cwf batch limit a = some (s', es) := by
  simp only [GPipe.wstep] at h
  split at h
  · exact h
  · cases h

theorem GPipe.wrun_run {s s' : GPipe K} {as : List PAct} {es : List PEv} (h : GPipe.WRun W cwf batch limit s as s' es) : GPipe.Run cwf batch limit s as s' es := by
  induction h with
  | nil => exact .nil _
  | snoc s1 s2 as a es fs _ hs ih => exact .snoc _ _ _ _ _ _ _ ih (GPipe.wstep_step hs)

theorem GPipe.wrun_trans {s s1 s2 : GPipe K} {as bs : List PAct} {es fs : List PEv} (h1 : GPipe.WRun W cwf batch limit s as s1 es) (h2 : GPipe.WRun W cwf batch limit s1 bs s2 fs) :
    GPipe.WRun W cwf batch limit s (as ++ bs) s2 (es ++ fs) := by
  induction h2 with
  | nil => simpa using h1
  | snoc s2 s3 bs a fs fs' _ hs ih =>
    rw [← List.append_assoc, ← List.append_assoc]
    exact GPipe.WRun.snoc _ _ _ _ _ _ _ ih hs

theorem GPipe.wrun_one {s s' : GPipe K} {a : PAct} {es : List PEv} (h : s.wstep W cwf batch limit a = some (s', es)) : GPipe.WRun W cwf batch limit s [a] s' es := by
  have := GPipe.WRun.snoc s s s' [] a [] es (.nil s) h
  simpa using this

theorem GPipe.wexec_run {s s' : GPipe K} {as : List PAct} {es : List PEv} (h : GPipe.wexec W cwf batch limit s as = some (s', es)) : GPipe.WRun W cwf batch limit s as s' es := by
  induction as generalizing s es with
  | nil => cases h; exact .nil _
  | cons a as ih =>
    simp only [GPipe.wexec, Option.bind_eq_bind, Option.bind_eq_some_iff] at h
    obtain ⟨⟨s1, e1⟩, h1, ⟨s2, e2⟩, h2, h3⟩ := h
    cases h3
    exact GPipe.wrun_trans (GPipe.wrun_one h1) (ih h2)

/-- Something goes on unless the path is at rest, however small the window. -/
theorem GPipe.wprogress (hW : 0 < W) (hK : K.Reads cwf w Ok Shown Inv) (hP : K.Packs w Ok May) (hlim : 0 < limit) {s : GPipe K} {es : List PEv} (h : s.Good w Ok Inv batch limit es)
    (hq : ¬ (s.tx.Quiet ∧ s.rx.Quiet limit ∧ s.off = s.tx.wire.length)) :
    ∃ a s' fs, PAct.Internal a ∧ s.wstep W cwf batch limit a = some (s', fs) ∧ s'.work < s.work := by
  by_cases h2 : s.rx.Quiet limit
  · by_cases h3 : s.off < s.tx.wire.length
    · have hrd := Rx.quiet_reading hlim h.rx_inv h2 h.dlost h.rd
      obtain ⟨cap, got, want, hph, hw, hg⟩ := hK.reading _ _ h.inv
      obtain ⟨conn, ms, hc, _, _⟩ := h.net hK (k := 1) hph (by omega) (by omega) (by omega) (by omega)
      have hex : ∃ s' fs, s.step cwf batch limit (.net 1) = some (s', fs) := by
        simp only [GPipe.step, hrd, hph]
        rw [if_pos ⟨by omega, by omega, by omega, by omega⟩, hc]
        simp only
        split
        · simp only [Rx.step, hrd, ne_eq, not_true_eq_false, if_false]
          split
          · exact ⟨_, _, rfl⟩
          · split <;> exact ⟨_, _, rfl⟩
        · exact ⟨_, _, rfl⟩
      obtain ⟨s', fs, hs⟩ := hex
      refine ⟨.net 1, s', fs, trivial, by simpa only [GPipe.wstep, PAct.room, if_true] using hs, ?_⟩
      rcases GPipe.step_work hK hP h.toCore (a := .net 1) trivial hs with hw | hw
      · exact hw
      · exact absurd hw.1 (by simp)
    · have ho := h.off
      have h1 : ¬ s.tx.Quiet := fun h1 => hq ⟨h1, h2, by omega⟩
      obtain ⟨a, t, tes, ha, hs, hone⟩ := Tx.progress_one batch s.tx h.tx_inv h1
      have hst : s.step cwf batch limit (.tx a) = some ({ s with tx := t }, []) := by simp only [GPipe.step, TxAct.internal_healthy ha, hs, if_true]; rfl
      have hroom : (PAct.tx a).room W s.tx.wire.length s.off = true := by
        cases a with
        | transfer i k =>
          have := hone i k rfl
          simp only [PAct.room, decide_eq_true_eq]
          omega
        | _ => rfl
      refine ⟨.tx a, _, _, trivial, by simp only [GPipe.wstep, hroom, if_true]; exact hst, ?_⟩
      rcases GPipe.step_work hK hP h.toCore (a := .tx a) trivial hst with hw | hw
      · exact hw
      · exact absurd hw.1 (by simp)
  · obtain ⟨a, r, res, ha, hs, hw⟩ := Rx.progress limit s.rx h.rx_inv h2
    refine ⟨.rx a, { s with rx := r }, res.filterMap rxEv, ?_, by simp only [GPipe.wstep, PAct.room, GPipe.step, RAct.internal_healthy ha, hs, if_true]; rfl, ?_⟩
    · cases a with
      | ret ok => cases ok <;> simp_all [PAct.Internal, RAct.Internal]
      | _ => trivial
    · simp only [GPipe.work]; omega

/-- The path comes to rest. -/
theorem GPipe.wsettles (hW : 0 < W) (hK : K.Reads cwf w Ok Shown Inv) (hP : K.Packs w Ok May) (hlim : 0 < limit) : ∀ (n : Nat) (s : GPipe K) (es : List PEv),
    s.Good w Ok Inv batch limit es → s.work ≤ n →
      ∃ bs s' fs, GPipe.WRun W cwf batch limit s bs s' fs ∧ (∀ b ∈ bs, b.Internal) ∧ s'.Good w Ok Inv batch limit (es ++ fs) ∧ sentItems fs = [] ∧
        (s'.tx.Quiet ∧ s'.rx.Quiet limit ∧ s'.off = s'.tx.wire.length) := by
  intro n
  induction n with
  | zero =>
    intro s es hg hw
    rcases Classical.em (s.tx.Quiet ∧ s.rx.Quiet limit ∧ s.off = s.tx.wire.length) with hr | hr
    · exact ⟨[], s, [], GPipe.WRun.nil s, by simp, by simpa using hg, rfl, hr⟩
    · obtain ⟨a, s', fs, a1, a3, a4⟩ := GPipe.wprogress hW hK hP hlim hg hr
      omega
  | succ n ih =>
    intro s es hg hw
    rcases Classical.em (s.tx.Quiet ∧ s.rx.Quiet limit ∧ s.off = s.tx.wire.length) with hr | hr
    · exact ⟨[], s, [], GPipe.WRun.nil s, by simp, by simpa using hg, rfl, hr⟩
    · obtain ⟨a, s', fs, a1, a3, a4⟩ := GPipe.wprogress hW hK hP hlim hg hr
      have hg' := GPipe.step_good hK hP hg (by intro call fits hc; subst hc; exact absurd a1 (by simp [PAct.Internal])) (GPipe.wstep_step a3)
      obtain ⟨bs, s2, gs, b1, b2, b3, b4, b5⟩ := ih s' _ hg' (by omega)
      refine ⟨[a] ++ bs, s2, fs ++ gs, GPipe.wrun_trans (GPipe.wrun_one a3) b1, ?_, by rw [← List.append_assoc]; exact b3, by rw [sentItems_append, GPipe.internal_sent a1 (GPipe.wstep_step a3), b4]; rfl, b5⟩
      intro b hb
      simp at hb
      rcases hb with rfl | hb
      · exact a1
      · exact b2 b hb

end

/-! ### a client and a server that answers -/

theorem Pipe.wprogress {c : Cfg} (hv : c.Valid) (nd cwf : Bool) {st : Bool} {batch limit W : Nat} (hW : 0 < W) (hlim : 0 < limit) {s : Pipe} {es : List PEv} (h : s.Good c st batch limit es)
    (hq : ¬ (s.tx.Quiet ∧ s.rx.Quiet limit ∧ s.off = s.tx.wire.length)) :
    ∃ a s' fs, PAct.Internal a ∧ a.Honest ∧ a.room W s.tx.wire.length s.off = true ∧ s.step c nd cwf batch limit a = some (s', fs) ∧ s'.work < s.work := by
  by_cases h2 : s.rx.Quiet limit
  · by_cases h3 : s.off < s.tx.wire.length
    · -- the same link with a sender at rest
      obtain ⟨ras, res, r1, r2, r3, r4, p, r5, r6⟩ := h.rx
      have hrd := Rx.quiet_reading hlim h.rx_inv h2 h.dlost h.rd
      obtain ⟨cap, got, want, hph, hw, hg⟩ := (unpacker_simulates c hv st cwf).reading s.conn p r6
      have hdl : ((s.tx.wire.drop s.off).take 1).length = 1 := by rw [List.length_take, List.length_drop]; omega
      obtain ⟨conn, hc, hm⟩ := (unpacker_simulates c hv st cwf).step s.conn p cap got want ((s.tx.wire.drop s.off).take 1) r6 hph
          (by intro h0; rw [h0] at hdl; simp at hdl) (by omega) (by omega)
      have hex : ∃ s' fs, s.step c nd cwf batch limit (.net 1) = some (s', fs) := by
        simp only [Pipe.step, hrd, hph]
        rw [if_pos ⟨by omega, by omega, by omega, by omega⟩, hc]
        simp only
        split
        · simp only [Rx.step, hrd, ne_eq, not_true_eq_false, if_false]
          split
          · exact ⟨_, _, rfl⟩
          · split <;> exact ⟨_, _, rfl⟩
        · exact ⟨_, _, rfl⟩
      obtain ⟨s', fs, hs⟩ := hex
      refine ⟨.net 1, s', fs, trivial, trivial, rfl, hs, ?_⟩
      rcases Pipe.step_work hv h (a := .net 1) trivial hs with hw | hw
      · exact hw
      · exact absurd hw.1 (by simp)
    · have ho := h.off
      have h1 : ¬ s.tx.Quiet := fun h1 => hq ⟨h1, h2, by omega⟩
      obtain ⟨a, t, tes, ha, hs, hone⟩ := Tx.progress_one batch s.tx h.tx_inv h1
      have hst : s.step c nd cwf batch limit (.tx a) = some ({ s with tx := t }, []) := by simp only [Pipe.step, TxAct.internal_healthy ha, hs, if_true]; rfl
      refine ⟨.tx a, _, _, trivial, trivial, ?_, hst, ?_⟩
      · cases a with
        | transfer i k =>
          have := hone i k rfl
          simp only [PAct.room, decide_eq_true_eq]
          omega
        | _ => rfl
      · rcases Pipe.step_work hv h (a := .tx a) trivial hst with hw | hw
        · exact hw
        · exact absurd hw.1 (by simp)
  · obtain ⟨a, r, res, ha, hs, hw⟩ := Rx.progress limit s.rx h.rx_inv h2
    refine ⟨.rx a, _, _, ?_, trivial, rfl, by simp only [Pipe.step, RAct.internal_healthy ha, hs, if_true]; rfl, ?_⟩
    · cases a with
      | ret ok => cases ok <;> simp_all [PAct.Internal, RAct.Internal]
      | _ => trivial
    · simp only [Pipe.work, Pipe.pend]; omega

theorem Echo.wstep_step {c : Cfg} {nd cwf : Bool} {batch limit sendLimit W : Nat} {s s' : Echo} {a : EAct} {es : List EEv} (h : s.wstep W c nd cwf batch limit sendLimit a = some (s', es)) :
    s.step c nd cwf batch limit sendLimit a = some (s', es) := by
  simp only [Echo.wstep] at h
  split at h
  · exact h
  · cases h

theorem Echo.wrun_run {c : Cfg} {nd cwf : Bool} {batch limit sendLimit W : Nat} {s s' : Echo} {as : List EAct} {es : List EEv} (h : Echo.WRun W c nd cwf batch limit sendLimit s as s' es) :
    Echo.Run c nd cwf batch limit sendLimit s as s' es := by
  induction h with
  | nil => exact .nil _
  | snoc s1 s2 as a es fs _ hs ih => exact .snoc _ _ _ _ _ _ _ ih (Echo.wstep_step hs)

theorem Echo.wrun_trans {c : Cfg} {nd cwf : Bool} {batch limit sendLimit W : Nat} {s s1 s2 : Echo} {as bs : List EAct} {es fs : List EEv} (h1 : Echo.WRun W c nd cwf batch limit sendLimit s as s1 es)
    (h2 : Echo.WRun W c nd cwf batch limit sendLimit s1 bs s2 fs) : Echo.WRun W c nd cwf batch limit sendLimit s (as ++ bs) s2 (es ++ fs) := by
  induction h2 with
  | nil => simpa using h1
  | snoc s2 s3 bs a fs fs' _ hs ih =>
    rw [← List.append_assoc, ← List.append_assoc]
    exact Echo.WRun.snoc _ _ _ _ _ _ _ ih hs

theorem Echo.wrun_one {c : Cfg} {nd cwf : Bool} {batch limit sendLimit W : Nat} {s s' : Echo} {a : EAct} {es : List EEv} (h : s.wstep W c nd cwf batch limit sendLimit a = some (s', es)) :
    Echo.WRun W c nd cwf batch limit sendLimit s [a] s' es := by
  have := Echo.WRun.snoc s s s' [] a [] es (.nil s) h
  simpa using this

theorem Echo.wexec_run {c : Cfg} {nd cwf : Bool} {batch limit sendLimit W : Nat} {s s' : Echo} {as : List EAct} {es : List EEv} (h : Echo.wexec W c nd cwf batch limit sendLimit s as = some (s', es)) :
    Echo.WRun W c nd cwf batch limit sendLimit s as s' es := by
  induction as generalizing s es with
  | nil => cases h; exact .nil _
  | cons a as ih =>
    simp only [Echo.wexec, Option.bind_eq_bind, Option.bind_eq_some_iff] at h
    obtain ⟨⟨s1, e1⟩, h1, ⟨s2, e2⟩, h2, h3⟩ := h
    cases h3
    exact Echo.wrun_trans (Echo.wrun_one h1) (ih h2)

theorem Pipe.ret_cur {c : Cfg} (hv : c.Valid) (hr : c.bufSize < 256 ^ c.headLen) {nd cwf : Bool} {st : Bool} {batch limit : Nat} {s u : Pipe} {es fs : List PEv} (h : s.Good c st batch limit es)
    (a3 : s.step c nd cwf batch limit (.rx (.ret true)) = some (u, fs)) : ∃ m, s.rx.cur = some m := by
  cases hm : s.rx.cur with
  | some m => exact ⟨m, rfl⟩
  | none =>
    exfalso
    have hbad := (Pipe.step_good hv hr h (a := .rx (.ret true)) trivial a3).rx_inv.bad
    simp only [Pipe.step, RAct.healthy, if_true, Rx.step, hm] at a3
    split at a3
    · simp at a3
    · simp at a3
      rw [← a3.1] at hbad
      simp at hbad

/-- A message being handled can be packed again. -/
theorem Pipe.cur_packs {c : Cfg} (hr : c.bufSize < 256 ^ c.headLen) {nd : Bool} {batch limit : Nat} {s : Pipe} {es : List PEv} (h : s.Good c true batch limit es) {m : Bytes} (hm : s.rx.cur = some m) :
    (SendCall.one m).pack c nd ≠ some none ∧ m ≠ [] ∧ m ∈ sentItems es := by
  obtain ⟨b, b1, b2, b3⟩ := h.cur_mem hm
  have hsm := h.small b b2
  simp only [seen, if_true] at b3
  subst b3
  have hpk := packHeader_ok c nd m.length (by have := c.headLen_pos; omega) (by omega)
  refine ⟨?_, b1, b2⟩
  simp only [SendCall.pack, packOne]
  rw [if_neg (by unfold maxMsgSize; omega)]
  simp [hpk]

theorem Echo.wprogress {c : Cfg} (hv : c.Valid) (hr : c.bufSize < 256 ^ c.headLen) (nd cwf : Bool) {st2 : Bool} {batch limit sendLimit W : Nat} (hW : 0 < W) (hlim : 0 < limit) (hsl : 0 < sendLimit) {s : Echo} {es : List EEv}
    (h : s.Good c true st2 batch limit es) (hq : ¬ s.AtRest limit) :
    ∃ a s' fs, EAct.Internal a ∧ a.Honest ∧ s.wstep W c nd cwf batch limit sendLimit a = some (s', fs) ∧ s'.work c < s.work c := by
  have hw0 : 0 < Echo.weight c := by unfold Echo.weight; omega
  by_cases hd : s.down.tx.Quiet ∧ s.down.rx.Quiet limit ∧ s.down.off = s.down.tx.wire.length
  · have hu : ¬ (s.up.tx.Quiet ∧ s.up.rx.Quiet limit ∧ s.up.off = s.up.tx.wire.length) := fun hu => hq ⟨hu, hd⟩
    obtain ⟨a, u, fs, a1, a2, ar, a3, a4⟩ := Pipe.wprogress hv nd cwf hW hlim h.up hu
    cases hret : a.isRet with
    | false =>
      refine ⟨.up a, { s with up := u }, fs.map .up, a1, a2, by simp [Echo.wstep, EAct.room, ar, Echo.step, hret, a3], ?_⟩
      simp only [Echo.work]
      have := Nat.mul_lt_mul_of_pos_left a4 hw0
      omega
    | true =>
      obtain ⟨q1, q2⟩ := h.down.quiet_empty hd.1
      have ha : a = .rx (.ret true) := by
        cases a with
        | rx b =>
          cases b with
          | ret ok => simp only [PAct.Internal] at a1; rw [a1]
          | _ => simp [PAct.isRet] at hret
        | _ => simp [PAct.isRet] at hret
      subst ha
      obtain ⟨m, hm⟩ := Pipe.ret_cur hv hr h.up a3
      obtain ⟨hok, _, _⟩ := Pipe.cur_packs (nd := nd) hr h.up hm
      obtain ⟨d, d1, _⟩ := Pipe.step_send_one hv hr (cwf := cwf) h.down m hok
      have hacc : Echo.accepts c nd sendLimit s.down m = true := by
        simp only [Echo.accepts, q2]
        rw [if_pos hsl]
      have hst : s.step c nd cwf batch limit sendLimit .echo = some (⟨u, d⟩, [PEv.sent m].map .down ++ fs.map .up) := by
        simp [Echo.step, hm, hacc, d1, a3]
      refine ⟨.echo, _, _, trivial, trivial, by simpa only [Echo.wstep, EAct.room, if_true] using hst, ?_⟩
      rcases Echo.step_work hv hr h (a := .echo) trivial hst with hw | hw | hw
      · exact hw.1
      · exact absurd hw.1 (by simp [EAct.isPoll])
      · exact absurd hw.2.2.2 (by rw [q2]; omega)
  · obtain ⟨a, u, fs, a1, a2, ar, a3, a4⟩ := Pipe.wprogress hv nd cwf hW hlim h.down hd
    refine ⟨.down a, { s with down := u }, fs.map .down, a1, trivial, by simp [Echo.wstep, EAct.room, ar, Echo.step, Pipe.Internal_not_send a1, a3], ?_⟩
    simp only [Echo.work]
    omega

theorem Echo.wdrain {c : Cfg} (hv : c.Valid) (hr : c.bufSize < 256 ^ c.headLen) {nd cwf : Bool} {st2 : Bool} {batch limit sendLimit W : Nat} (hW : 0 < W) (hlim : 0 < limit) (hsl : 0 < sendLimit) :
    ∀ (n : Nat) (s : Echo) (es : List EEv), s.Good c true st2 batch limit es → s.work c ≤ n →
      ∃ bs s' fs, Echo.WRun W c nd cwf batch limit sendLimit s bs s' fs ∧ (∀ b ∈ bs, b.Internal) ∧ answered (es ++ fs) = expected c.headLen st2 (asked es) := by
  intro n
  induction n with
  | zero =>
    intro s es hg hw
    rcases Classical.em (s.AtRest limit) with hq | hq
    · exact ⟨[], s, [], Echo.WRun.nil s, by simp, by rw [List.append_nil]; exact hg.rest_answered hq⟩
    · obtain ⟨a, s', fs, a1, a2, a3, a4⟩ := Echo.wprogress hv hr nd cwf hW hlim hsl hg hq
      omega
  | succ n ih =>
    intro s es hg hw
    rcases Classical.em (s.AtRest limit) with hq | hq
    · exact ⟨[], s, [], Echo.WRun.nil s, by simp, by rw [List.append_nil]; exact hg.rest_answered hq⟩
    · obtain ⟨a, s', fs, a1, a2, a3, a4⟩ := Echo.wprogress hv hr nd cwf hW hlim hsl hg hq
      obtain ⟨bs, s2, gs, b1, b2, b3⟩ := ih s' _ (Echo.step_good hv hr hg a2 (Echo.wstep_step a3)) (by omega)
      have hns := Echo.step_asked a1 (Echo.wstep_step a3)
      have has : asked (es ++ fs) = asked es := by
        simp only [asked] at *
        rw [ups_append, sentItems_append, hns, List.append_nil]
      refine ⟨[a] ++ bs, s2, fs ++ gs, Echo.wrun_trans (Echo.wrun_one a3) b1, ?_, ?_⟩
      · intro b hb
        simp at hb
        rcases hb with rfl | hb
        · exact a1
        · exact b2 b hb
      · rw [← List.append_assoc, b3, has]

end StAsio
