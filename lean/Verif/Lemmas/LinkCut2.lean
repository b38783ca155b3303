import Verif.Lemmas.LinkCut
set_option autoImplicit false
namespace StAsio

section
variable {K : Codec} {cwf : Bool} {w : Item → Bytes} {Ok : Item → Prop} {Shown : List Item → Nat → List Bytes → Prop} {Inv : Bytes → Conn K.σ → Prop}
  {May : SendCall → Prop} {batch limit : Nat} {tracked : Bool}

/-! ### a link that is shut down by the sender -/

theorem Tx.step_still_wire {s s' : Tx} {a : TxAct} {es : List TxEv} (ha : a.healthy = true) (hn : ∀ i k, a ≠ .transfer i k) (hs : s.step batch a = some (s', es)) : s'.wire = s.wire := by
  cases a with
  | transfer i k => exact absurd rfl (hn i k)
  | strand =>
    simp only [Tx.step, Tx.strand] at hs
    (repeat' split at hs) <;> first | (cases hs; done) | (cases hs; rfl)
  | complete i ok =>
    simp only [Tx.step, Option.bind_eq_bind, Option.bind_eq_some_iff] at hs
    obtain ⟨w, _, hs⟩ := hs
    (repeat' split at hs) <;> first | (cases hs; done) | (cases hs; rfl)
  | handler i =>
    simp only [Tx.step, Option.bind_eq_bind, Option.bind_eq_some_iff] at hs
    obtain ⟨d, _, hs⟩ := hs
    split at hs
    · cases hs
    · simp only [Option.some.injEq, Tx.handler] at hs
      (repeat' split at hs) <;> (cases hs; rfl)
  | loadReady =>
    simp only [Tx.step] at hs
    (repeat' split at hs) <;> first | (cases hs; done) | (cases hs; rfl)
  | loadFlag =>
    simp only [Tx.step] at hs
    (repeat' split at hs) <;> first | (cases hs; done) | (cases hs; rfl)
  | runPosted =>
    simp only [Tx.step] at hs
    (repeat' split at hs) <;> first | (cases hs; done) | (cases hs; rfl)
  | _ => simp [TxAct.healthy] at ha

/-- Steps that do not write leave the stream alone; only the network moves the reader, and not beyond the end. -/
theorem GPipe.step_stream {s s' : GPipe K} {a : PAct} {fs : List PEv} (hi : s.tx.Inv) (ha : a.writes = false) (hs : s.step cwf batch limit a = some (s', fs)) :
    s'.tx.wire = s.tx.wire ∧ (s.off = s.tx.wire.length → s'.off = s.off) := by
  cases a with
  | send call fits =>
    simp only [GPipe.step] at hs
    split at hs
    · cases hs; exact ⟨rfl, fun _ => rfl⟩
    · cases hs; exact ⟨rfl, fun _ => rfl⟩
    · simp only [Option.some.injEq, Prod.mk.injEq] at hs
      obtain ⟨rfl, rfl⟩ := hs
      refine ⟨?_, fun _ => rfl⟩
      split
      · exact (Tx.send_step _ _ _).2.1
      · exact (Tx.sendList_step hi _).2.1
  | tx a =>
    simp only [GPipe.step] at hs
    split at hs
    · next hh =>
      rw [Option.map_eq_some_iff] at hs
      obtain ⟨⟨t, tes⟩, h1, h2⟩ := hs
      cases h2
      exact ⟨Tx.step_still_wire hh (by rintro i k rfl; simp [PAct.writes] at ha) h1, fun _ => rfl⟩
    · cases hs
  | rx a =>
    simp only [GPipe.step] at hs
    split at hs
    · rw [Option.map_eq_some_iff] at hs
      obtain ⟨r, _, h2⟩ := hs
      cases h2; exact ⟨rfl, fun _ => rfl⟩
    · cases hs
  | net k =>
    simp only [GPipe.step] at hs
    split at hs
    · split at hs
      · next hk =>
        have hne : s.off ≠ s.tx.wire.length := by omega
        split at hs
        · cases hs; exact ⟨rfl, fun h => absurd h hne⟩
        · split at hs
          · rw [Option.map_eq_some_iff] at hs
            obtain ⟨r, _, h2⟩ := hs
            cases h2; exact ⟨rfl, fun h => absurd h hne⟩
          · cases hs; exact ⟨rfl, fun h => absurd h hne⟩
      · cases hs
    · cases hs

theorem Cut.close_p (s : Cut K) : s.close.1.p.tx = s.p.tx ∧ s.close.1.p.off = s.p.off ∧ s.close.1.fin = s.fin ∧ s.close.1.broken = s.broken := by
  unfold Cut.close
  split <;> exact ⟨rfl, rfl, rfl, rfl⟩

/-- The sender ended the stream after `W`, nobody else ended the link: the receiver does not stop before it read `W`. -/
structure Cut.Fin (W : Bytes) (s : Cut K) : Prop where
  fin : s.fin = true
  ok : s.broken = false
  wire : s.p.tx.wire = W
  off : s.up = false → s.p.off = W.length

theorem Cut.step_fin (hC : K.Cuts Inv) {W : Bytes} {s s' : Cut K} {a : CutAct} {es fs : List CutEv} (hg : s.Good tracked w Ok Inv batch limit es) (h : s.Fin W)
    (ha : a ≠ .brk ∧ a ≠ .shutdown) (hs : s.step tracked cwf batch limit a = some (s', fs)) : s'.Fin W := by
  cases a with
  | pipe a =>
    simp only [Cut.step] at hs
    split at hs
    · cases hs
    · next hw =>
      rw [Option.map_eq_some_iff] at hs
      obtain ⟨⟨p, pes⟩, h1, h2⟩ := hs
      cases h2
      have hw : a.writes = false := by
        simp only [h.fin, Bool.true_and, Bool.or_eq_true, not_or, Bool.not_eq_true] at hw
        exact hw.1
      obtain ⟨e1, e2⟩ := GPipe.step_stream hg.core.tx_inv hw h1
      refine ⟨h.fin, h.ok, by rw [← h.wire]; exact e1, ?_⟩
      intro hu
      have := h.off hu
      simp only
      rw [e2 (by rw [h.wire]; exact this)]
      exact this
  | fin =>
    simp only [Cut.step, h.fin, if_true] at hs
    cases hs
  | brk => exact absurd rfl ha.1
  | shutdown => exact absurd rfl ha.2
  | readEnd =>
    simp only [Cut.step] at hs
    split at hs
    · next hc =>
      rw [Option.map_eq_some_iff] at hs
      obtain ⟨⟨p, pes⟩, h1, h2⟩ := hs
      cases h2
      obtain ⟨rfl, e1, ⟨rd, e2, e3⟩, e4⟩ := hg.core.readEnd hC h1
      have hoff : s.p.off = W.length := by
        rcases hc with hc | hc | hc
        · rw [h.ok] at hc; cases hc
        · exact h.off hc
        · rw [hc.2, h.wire]
      obtain ⟨c1, c2, c3, c4⟩ := Cut.close_p { s with p := p, ended := true }
      refine ⟨by rw [c3]; exact h.fin, by rw [c4]; exact h.ok, ?_, ?_⟩
      · rw [c1]; simp only [e2]; exact h.wire
      · intro _; rw [c2]; simp only [e2]; exact hoff
    · cases hs
  | tick other =>
    simp only [Cut.step] at hs
    split at hs
    · cases hs
    · split at hs
      · cases hs; exact ⟨h.fin, h.ok, h.wire, h.off⟩
      · cases hs; exact ⟨h.fin, h.ok, h.wire, h.off⟩

theorem Cut.run_fin (hK : K.Reads cwf w Ok Shown Inv) (hC : K.Cuts Inv) (hP : K.Packs w Ok May) {W : Bytes} {s s' : Cut K} {as : List CutAct} {es fs : List CutEv}
    (hg : s.Good tracked w Ok Inv batch limit es) (h : s.Fin W) (hm : ∀ a ∈ as, ∀ call fits, a = .pipe (.send call fits) → May call)
    (ha : ∀ a ∈ as, a ≠ .brk ∧ a ≠ .shutdown) (hs : Cut.Run tracked cwf batch limit s as s' fs) : s'.Fin W := by
  induction hs with
  | nil => exact h
  | snoc s1 s2 as a es1 fs1 hr1 hs1 ih =>
    have hg1 := Cut.run_good hK hC hP hg (fun x hx => hm x (by simp [hx])) hr1
    exact Cut.step_fin hC hg1 (ih (fun x hx => hm x (by simp [hx])) (fun x hx => ha x (by simp [hx]))) (ha a (by simp)) hs1

/-- Before the end nothing but the other side ends the link. -/
theorem Cut.run_whole {s s' : Cut K} {as : List CutAct} {fs : List CutEv} (ha : ∀ a ∈ as, a ≠ .brk ∧ a ≠ .shutdown ∧ a ≠ .fin)
    (hs : Cut.Run tracked cwf batch limit s as s' fs) (h1 : s.fin = false) (h2 : s.broken = false) (h3 : s.up = true) :
    s'.fin = false ∧ s'.broken = false ∧ s'.up = true := by
  induction hs with
  | nil => exact ⟨h1, h2, h3⟩
  | snoc s1 s2 as a es1 fs1 hr1 hs1 ih =>
    obtain ⟨i1, i2, i3⟩ := ih (fun x hx => ha x (by simp [hx]))
    have ha := ha a (by simp)
    cases a with
    | pipe a =>
      simp only [Cut.step] at hs1
      split at hs1
      · cases hs1
      · rw [Option.map_eq_some_iff] at hs1
        obtain ⟨r, _, h2⟩ := hs1
        cases h2; exact ⟨i1, i2, i3⟩
    | fin => exact absurd rfl ha.2.2
    | brk => exact absurd rfl ha.1
    | shutdown => exact absurd rfl ha.2.1
    | readEnd =>
      simp only [Cut.step] at hs1
      rw [if_neg (by simp [i1, i2, i3])] at hs1
      cases hs1
    | tick other =>
      simp only [Cut.step] at hs1
      split at hs1
      · cases hs1
      · split at hs1
        · cases hs1; exact ⟨i1, i2, i3⟩
        · cases hs1; exact ⟨i1, i2, i3⟩

theorem Cut.run_ended {s s' : Cut K} {as : List CutAct} {fs : List CutEv} (hs : Cut.Run tracked cwf batch limit s as s' fs) :
    (CutAct.fin ∈ as → s'.fin = true) ∧ (CutAct.brk ∈ as → s'.broken = true) := by
  induction hs with
  | nil => simp
  | snoc s1 s2 as a es1 fs1 hr1 hs1 ih =>
    have key : (s1.fin = true ∨ a = .fin → s2.fin = true) ∧ (s1.broken = true ∨ a = .brk → s2.broken = true) := by
      cases a with
      | pipe a =>
        simp only [Cut.step] at hs1
        split at hs1
        · cases hs1
        · rw [Option.map_eq_some_iff] at hs1
          obtain ⟨r, _, h2⟩ := hs1
          cases h2; simp
      | fin =>
        simp only [Cut.step] at hs1
        split at hs1
        · cases hs1
        · cases hs1; simp
      | brk => cases hs1; simp
      | shutdown =>
        simp only [Cut.step, Option.some.injEq] at hs1
        obtain ⟨_, _, c3, c4⟩ := Cut.close_p s1
        rw [hs1] at c3 c4
        simp only at c3 c4
        simp [c3, c4]
      | readEnd =>
        simp only [Cut.step] at hs1
        split at hs1
        · rw [Option.map_eq_some_iff] at hs1
          obtain ⟨r, _, h2⟩ := hs1
          obtain ⟨_, _, c3, c4⟩ := Cut.close_p { s1 with p := r.1, ended := true }
          simp only [Prod.mk.injEq] at h2
          rw [h2.1] at c3 c4
          simp only at c3 c4
          simp [c3, c4]
        · cases hs1
      | tick other =>
        simp only [Cut.step] at hs1
        split at hs1
        · cases hs1
        · split at hs1
          · cases hs1; simp
          · cases hs1; simp
    simp only [List.mem_append, List.mem_singleton]
    refine ⟨fun h => key.1 ?_, fun h => key.2 ?_⟩
    · rcases h with h | h
      · exact Or.inl (ih.1 h)
      · exact Or.inr h.symm
    · rcases h with h | h
      · exact Or.inl (ih.2 h)
      · exact Or.inr h.symm

/-! ### the socket is closed in the end -/

theorem Cut.run_trans {s s1 s2 : Cut K} {as bs : List CutAct} {es fs : List CutEv}
    (h1 : Cut.Run tracked cwf batch limit s as s1 es) (h2 : Cut.Run tracked cwf batch limit s1 bs s2 fs) : Cut.Run tracked cwf batch limit s (as ++ bs) s2 (es ++ fs) := by
  induction h2 with
  | nil => simpa using h1
  | snoc s2 s3 bs a fs fs' _ hs ih =>
    rw [← List.append_assoc, ← List.append_assoc]
    exact Cut.Run.snoc _ _ _ _ _ _ _ ih hs

theorem Cut.run_one {s s1 : Cut K} {a : CutAct} {es : List CutEv} (h : s.step tracked cwf batch limit a = some (s1, es)) :
    Cut.Run tracked cwf batch limit s [a] s1 es := by
  have := Cut.Run.snoc _ _ _ _ _ _ _ (Cut.Run.nil (tracked := tracked) (cwf := cwf) (batch := batch) (limit := limit) s) h
  simpa using this

theorem Cut.exec_run {s s' : Cut K} {as : List CutAct} {es : List CutEv} (h : Cut.exec tracked cwf batch limit s as = some (s', es)) :
    Cut.Run tracked cwf batch limit s as s' es := by
  induction as generalizing s es with
  | nil => simp [Cut.exec] at h; obtain ⟨rfl, rfl⟩ := h; exact Cut.Run.nil _
  | cons a as ih =>
    simp only [Cut.exec, Option.bind_eq_bind] at h
    rw [Option.bind_eq_some_iff] at h
    obtain ⟨⟨s1, e1⟩, h1, h2⟩ := h
    rw [Option.bind_eq_some_iff] at h2
    obtain ⟨⟨s2, e2⟩, h2, h3⟩ := h2
    simp at h3
    obtain ⟨rfl, rfl⟩ := h3
    exact Cut.run_trans (Cut.run_one h1) (ih h2)

theorem CutAct.internal_send {as : List CutAct} (h : ∀ a ∈ as, a.Internal) : ∀ a ∈ as, ∀ call fits, a = .pipe (.send call fits) → May call := by
  rintro a ha call fits rfl
  exact absurd (h _ ha) (by simp [CutAct.Internal, PAct.Internal])

/-- The receiver comes to rest. -/
theorem Cut.rests : ∀ (n : Nat) (s : Cut K), s.p.rx.Inv → s.p.rx.work ≤ n →
    ∃ bs t fs, Cut.Run tracked cwf batch limit s bs { s with p := { s.p with rx := t } } fs ∧ (∀ b ∈ bs, b.Internal) ∧ t.Quiet limit := by
  intro n
  induction n with
  | zero =>
    intro s hi hw
    rcases Classical.em (s.p.rx.Quiet limit) with h | h
    · exact ⟨[], s.p.rx, [], Cut.Run.nil s, by simp, h⟩
    · obtain ⟨a, t, es, _, _, h3⟩ := Rx.progress limit s.p.rx hi h
      omega
  | succ n ih =>
    intro s hi hw
    rcases Classical.em (s.p.rx.Quiet limit) with h | h
    · exact ⟨[], s.p.rx, [], Cut.Run.nil s, by simp, h⟩
    · obtain ⟨a, t, es, h1, h2, h3⟩ := Rx.progress limit s.p.rx hi h
      have hst : s.step tracked cwf batch limit (.pipe (.rx a)) = some ({ s with p := { s.p with rx := t } }, (es.filterMap rxEv).map .pipe) := by
        simp only [Cut.step, PAct.writes, PAct.reads, Bool.and_false, Bool.or_false, Bool.false_eq_true, if_false, GPipe.step, RAct.internal_healthy h1, if_true, h2]
        rfl
      obtain ⟨bs, t', fs, g1, g2, g3⟩ := ih { s with p := { s.p with rx := t } } (Rx.step_inv hi h2).1 (by simp only; omega)
      refine ⟨_, t', _, Cut.run_trans (Cut.run_one hst) g1, ?_, g3⟩
      intro b hb
      simp only [List.cons_append, List.nil_append, List.mem_cons] at hb
      rcases hb with rfl | hb
      · cases a with
        | ret ok => cases ok <;> simp_all [CutAct.Internal, PAct.Internal, RAct.Internal]
        | _ => trivial
      · exact g2 b hb

/-- The reception ends, when it may. -/
theorem Cut.ends (hK : K.Reads cwf w Ok Shown Inv) (hC : K.Cuts Inv) {s : Cut K} {es : List CutEv} (h : s.Good tracked w Ok Inv batch limit es) (hrd : s.p.rx.rd = .reading)
    (hc : s.broken ∨ s.up = false ∨ (s.fin = true ∧ s.p.off = s.p.tx.wire.length)) :
    ∃ s' fs, s.step tracked cwf batch limit .readEnd = some (s', fs) ∧ s'.up = false ∧ s'.p.rx.posted = s.p.rx.posted ∧ s'.p.rx.pc = s.p.rx.pc ∧
      (s'.p.rx.dtimer = true → s.p.rx.dtimer = true) ∧ (s'.p.rx.rd = .off ∨ s'.p.rx.rd = .timer) := by
  obtain ⟨cap, got, want, hph, _, _⟩ := hK.reading _ _ h.core.inv
  have hex : ∃ r, s.p.readEnd limit s.ended = some r := by
    simp only [GPipe.readEnd, hrd, hph]
    split
    · rw [show s.p.rx.step limit .readError = some ({ s.p.rx with rd := .off }, []) by simp [Rx.step, hrd]]
      exact ⟨_, rfl⟩
    · next hg =>
      have hg : got ≠ 0 := fun h0 => hg (Or.inl h0)
      obtain ⟨u, ok, hp⟩ := hC _ _ _ _ _ h.core.inv hph (by omega)
      rw [hp]
      simp only [Rx.endRead_nil hrd, Option.map_some]
      exact ⟨_, rfl⟩
  obtain ⟨⟨p, pes⟩, hr⟩ := hex
  obtain ⟨rfl, _, ⟨rd, e2, e3⟩, _⟩ := h.core.readEnd hC hr
  have hst : s.step tracked cwf batch limit .readEnd = some ((Cut.close { s with p := p, ended := true }).1, [] ++ (Cut.close { s with p := p, ended := true }).2) := by
    simp only [Cut.step, if_pos hc, hr, Option.map_some]
    rfl
  refine ⟨_, _, hst, ?_⟩
  subst e2
  unfold Cut.close
  cases hu : s.up
  · simp only [Bool.false_eq_true, if_false]
    exact ⟨trivial, trivial, trivial, id, e3⟩
  · simp only [if_true, Rx.stopTimers]
    refine ⟨trivial, trivial, trivial, by simp, ?_⟩
    rcases e3 with e3 | e3 <;> simp [e3]

/-- A socket that was taken down is closed. -/
theorem Cut.closes_down (hK : K.Reads cwf w Ok Shown Inv) (hC : K.Cuts Inv) (hP : K.Packs w Ok May) {s : Cut K} {es : List CutEv} (h : s.Good tracked w Ok Inv batch limit es)
    (hup : s.up = false) : ∃ bs s' fs, Cut.Run tracked cwf batch limit s bs s' fs ∧ (∀ b ∈ bs, b.Internal) ∧ CutEv.closed ∈ es ++ fs := by
  rcases Classical.em (s.dc = .done) with hd | hd
  · exact ⟨[], s, [], Cut.Run.nil s, by simp, by rw [List.append_nil]; exact h.closed.mpr hd⟩
  · have harm : s.dc = .armed := by
      have := h.dc hup
      cases hdc : s.dc <;> simp_all
    obtain ⟨bs, t, fs, r1, r2, r3⟩ := Cut.rests (tracked := tracked) (cwf := cwf) (batch := batch) (limit := limit) s.p.rx.work s h.core.rx_inv (Nat.le_refl _)
    have hg := Cut.run_good hK hC hP h (CutAct.internal_send r2) r1
    -- what remains when dispatching is finished
    have fin : ∀ (u : Cut K) (gs : List CutEv), u.Good tracked w Ok Inv batch limit gs → u.dc = .armed → u.p.rx.posted = 0 → u.p.rx.pc = .idle → u.p.rx.dtimer = false →
        (u.p.rx.rd = .off ∨ u.p.rx.rd = .timer) → ∃ bs s' fs, Cut.Run tracked cwf batch limit u bs s' fs ∧ (∀ b ∈ bs, b.Internal) ∧ CutEv.closed ∈ fs := by
      intro u gs hu h1 h2 h3 h4 h5
      rcases Classical.em (tracked = true ∧ u.p.rx.rd = .timer) with h6 | h6
      · have s1 : u.step tracked cwf batch limit (.tick false) = some ({ u with p := { u.p with rx := u.p.rx.stopTimers } }, []) := by
          simp [Cut.step, h1, h6.1, Rx.busy, h6.2]
        have s2 : Cut.step tracked cwf batch limit { u with p := { u.p with rx := u.p.rx.stopTimers } } (.tick false) =
            some ({ u with p := { u.p with rx := u.p.rx.stopTimers }, dc := .done }, [.closed]) := by
          simp [Cut.step, h1, Rx.busy, Rx.stopTimers, h2, h3, h6.2]
        refine ⟨_, _, _, Cut.run_trans (Cut.run_one s1) (Cut.run_one s2), by simp [CutAct.Internal], by simp⟩
      · have s2 : u.step tracked cwf batch limit (.tick false) = some ({ u with dc := .done }, [.closed]) := by
          cases tracked with
          | false => simp [Cut.step, h1]
          | true =>
            have h7 : u.p.rx.rd = .off := by
              rcases h5 with h5 | h5
              · exact h5
              · exact absurd ⟨rfl, h5⟩ h6
            simp [Cut.step, h1, Rx.busy, h2, h3, h4, h7]
        exact ⟨_, _, _, Cut.run_one s2, by simp [CutAct.Internal], by simp⟩
    obtain ⟨q1, q2, q3, q4⟩ := r3
    rcases q4 with q4 | q4
    · obtain ⟨s2, fs2, e1, e2, e3, e4, e5, e6⟩ := Cut.ends hK hC hg q4 (Or.inr (Or.inl hup))
      have hg2 := Cut.step_good hK hC hP hg (by simp) e1
      have hdc2 : s2.dc = .armed := by
        simp only [Cut.step, hup, true_or, or_true, if_true] at e1
        rw [Option.map_eq_some_iff] at e1
        obtain ⟨r, _, e1⟩ := e1
        simp only [Cut.close, Bool.false_eq_true, if_false, Prod.mk.injEq] at e1
        rw [← e1.1]
        exact harm
      obtain ⟨bs3, s3, fs3, f1, f2, f3⟩ := fin s2 _ hg2 hdc2 (by rw [e3]; exact q1) (by rw [e4]; exact q2)
        (by cases hdt : s2.p.rx.dtimer; rfl; exact absurd (e5 hdt) (by simp [q3])) e6
      refine ⟨_, _, _, Cut.run_trans (Cut.run_trans r1 (Cut.run_one e1)) f1, ?_, by simp [f3]⟩
      intro b hb
      simp only [List.mem_append, List.mem_singleton] at hb
      rcases hb with (hb | rfl) | hb
      · exact r2 b hb
      · trivial
      · exact f2 b hb
    · obtain ⟨bs3, s3, fs3, f1, f2, f3⟩ := fin { s with p := { s.p with rx := t } } _ hg harm q1 q2 q3 (by rcases q4 with q4 | q4; exact Or.inl q4; exact Or.inr q4.1)
      refine ⟨_, _, _, Cut.run_trans r1 f1, ?_, by simp [f3]⟩
      intro b hb
      simp only [List.mem_append] at hb
      rcases hb with hb | hb
      · exact r2 b hb
      · exact f2 b hb

/-- Once the other side ended the stream, or the link broke, the socket is closed. -/
theorem Cut.closes (hK : K.Reads cwf w Ok Shown Inv) (hC : K.Cuts Inv) (hP : K.Packs w Ok May) (hlim : 0 < limit) : ∀ (n : Nat) (s : Cut K) (es : List CutEv),
    s.Good tracked w Ok Inv batch limit es → s.p.tx.wire.length - s.p.off ≤ n → s.fin = true ∨ s.broken = true ∨ s.up = false →
    ∃ bs s' fs, Cut.Run tracked cwf batch limit s bs s' fs ∧ (∀ b ∈ bs, b.Internal) ∧ CutEv.closed ∈ es ++ fs := by
  intro n
  induction n with
  | zero =>
    intro s es h hn hc
    rcases Classical.em (s.up = false) with hup | hup
    · exact Cut.closes_down hK hC hP h hup
    · have hup : s.up = true := by simpa using hup
      obtain ⟨bs, t, fs, r1, r2, r3⟩ := Cut.rests (tracked := tracked) (cwf := cwf) (batch := batch) (limit := limit) s.p.rx.work s h.core.rx_inv (Nat.le_refl _)
      have hg := Cut.run_good hK hC hP h (CutAct.internal_send r2) r1
      obtain ⟨u1, u2, _, _⟩ := hg.up hup
      have hrd := Rx.quiet_reading hlim hg.core.rx_inv r3 u2 u1
      have hoff := h.core.off
      obtain ⟨s2, fs2, e1, e2, _⟩ := Cut.ends hK hC hg hrd (by
        rcases hc with hc | hc | hc
        · exact Or.inr (Or.inr ⟨hc, by simp only; omega⟩)
        · exact Or.inl hc
        · rw [hup] at hc; cases hc)
      have hg2 := Cut.step_good hK hC hP hg (by simp) e1
      obtain ⟨bs3, s3, fs3, f1, f2, f3⟩ := Cut.closes_down hK hC hP hg2 e2
      refine ⟨_, _, _, Cut.run_trans (Cut.run_trans r1 (Cut.run_one e1)) f1, ?_, by simpa [List.append_assoc] using f3⟩
      intro b hb
      simp only [List.mem_append, List.mem_singleton] at hb
      rcases hb with (hb | rfl) | hb
      · exact r2 b hb
      · trivial
      · exact f2 b hb
  | succ n ih =>
    intro s es h hn hc
    rcases Classical.em (s.up = false) with hup | hup
    · exact Cut.closes_down hK hC hP h hup
    · have hup : s.up = true := by simpa using hup
      rcases Classical.em (s.p.tx.wire.length - s.p.off ≤ n) with hle | hle
      · exact ih s es h hle hc
      · obtain ⟨bs, t, fs, r1, r2, r3⟩ := Cut.rests (tracked := tracked) (cwf := cwf) (batch := batch) (limit := limit) s.p.rx.work s h.core.rx_inv (Nat.le_refl _)
        have hg := Cut.run_good hK hC hP h (CutAct.internal_send r2) r1
        obtain ⟨u1, u2, _, u4⟩ := hg.up hup
        have hrd := Rx.quiet_reading hlim hg.core.rx_inv r3 u2 u1
        obtain ⟨cap, got, want, hph, hw, hgc⟩ := hK.reading _ _ hg.core.inv
        obtain ⟨conn, ms, hcn, _, _⟩ := hg.core.net hK (k := 1) hph (by omega) (by omega) (by omega) (by simp only; omega)
        have hex : ∃ p' pes, GPipe.step cwf batch limit { s.p with rx := t } (.net 1) = some (p', pes) ∧ p'.off = s.p.off + 1 ∧ p'.tx = s.p.tx := by
          have hrd : t.rd = .reading := hrd
          have hph : s.p.conn.ph = .reading cap got want := hph
          have hcn : readSome K.ops cwf s.p.conn cap got ((s.p.tx.wire.drop s.p.off).take 1) = some conn := hcn
          simp only [GPipe.step, hrd, hph]
          rw [if_pos ⟨by omega, by omega, by omega, by omega⟩, hcn]
          simp only
          split
          · simp only [Rx.step, hrd, ne_eq, not_true_eq_false, if_false]
            split
            · exact ⟨_, _, rfl, rfl, rfl⟩
            · split <;> exact ⟨_, _, rfl, rfl, rfl⟩
          · exact ⟨_, _, rfl, rfl, rfl⟩
        obtain ⟨p', pes, hp', ho, ht⟩ := hex
        have hst : Cut.step tracked cwf batch limit { s with p := { s.p with rx := t } } (.pipe (.net 1)) = some ({ s with p := p' }, pes.map .pipe) := by
          have u4 : s.ended = false := u4
          simp only [Cut.step, PAct.writes, PAct.reads, Bool.and_false, u4, Bool.false_and, Bool.or_false, Bool.false_eq_true, if_false, hp', Option.map_some]
        have hg2 := Cut.step_good hK hC hP hg (by simp) hst
        obtain ⟨bs3, s3, fs3, f1, f2, f3⟩ := ih { s with p := p' } _ hg2 (by simp only [ho, ht]; omega) hc
        refine ⟨_, _, _, Cut.run_trans (Cut.run_trans r1 (Cut.run_one hst)) f1, ?_, by simpa [List.append_assoc] using f3⟩
        intro b hb
        simp only [List.mem_append, List.mem_singleton] at hb
        rcases hb with (hb | rfl) | hb
        · exact r2 b hb
        · trivial
        · exact f2 b hb

end

theorem Proto.wire_nil (P : Proto) {b : Item} (h : (P.wire b).length = 0) : P.seen b = [] := by
  have := P.seen_le b
  exact List.length_eq_zero_iff.mp (by omega)

theorem Proto.inBytes_zero (P : Proto) (items : List Item) : P.inBytes items 0 = [] := by
  induction items with
  | nil => rfl
  | cons b rest ih =>
    simp only [Proto.inBytes]
    split
    · rfl
    · rw [P.wire_nil (by omega), Nat.zero_sub, ih]; rfl

/-- What was sent later does not matter when only the bytes of the earlier messages were read. -/
theorem Proto.shown_first (P : Proto) {x y : List Item} {ms : List Bytes} (h : P.Shown (x ++ y) ((x.map P.wire).flatten.length) ms) : P.Everything x ms := by
  have key : ∀ x : List Item, P.inBytes (x ++ y) ((x.map P.wire).flatten.length) = x.flatMap P.seen := by
    intro x
    induction x with
    | nil => exact P.inBytes_zero y
    | cons b x ih =>
      simp only [List.cons_append, Proto.inBytes, List.map_cons, List.flatten_cons, List.length_append]
      rw [if_neg (by omega), Nat.add_sub_cancel_left, ih, List.flatMap_cons]
  cases P with
  | stream c =>
    simp only [Proto.Shown, Proto.Everything, Proto.wire, List.map_id, List.flatten_append] at h ⊢
    rw [List.take_left] at h
    exact h
  | _ => simp only [Proto.Shown, Proto.Everything] at h ⊢; rw [h]; exact key x

end StAsio
