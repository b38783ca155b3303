import Verif.Model.Binding
/-!
# C98: a server that listens, and a UDP socket that is started, can be reached at its address

`Bd.Run srv (Bd.init a held files) as s es`: what happens to a server (`srv`) or a UDP socket with the address `a`, while others use the addresses `held` and there are the files `files`; `promised a es` (Spec/Binding.lean) is the address
at which the program was told it can be reached, `s.sock` is what the kernel has.
-/
set_option autoImplicit false
namespace StAsio

theorem Bd.run_trans {srv : Bool} {s1 s2 s3 : Bd} {as bs : List BdAct} {es fs : List BdEv} (h1 : Bd.Run srv s1 as s2 es) (h2 : Bd.Run srv s2 bs s3 fs) : Bd.Run srv s1 (as ++ bs) s3 (es ++ fs) := by
  induction h2 with
  | nil => simpa using h1
  | snoc t1 t2 bs b fs gs _ hs ih =>
    rw [← List.append_assoc, ← List.append_assoc]
    exact .snoc _ _ _ _ _ _ _ ih hs

theorem Bd.run_one {srv : Bool} {s s' : Bd} {a : BdAct} {es : List BdEv} (h : s.step srv a = some (s', es)) : Bd.Run srv s [a] s' es := by
  simpa using Bd.Run.snoc s s s' [] a [] es (.nil s) h

theorem Bd.exec_run {srv : Bool} {as : List BdAct} : ∀ {s s' : Bd} {es : List BdEv}, Bd.exec srv s as = some (s', es) → Bd.Run srv s as s' es := by
  induction as with
  | nil => intro s s' es h; cases h; exact .nil _
  | cons a as ih =>
    intro s s' es h
    simp only [Bd.exec, Option.bind_eq_bind, Option.bind_eq_some_iff] at h
    obtain ⟨⟨s1, e1⟩, h1, ⟨s2, e2⟩, h2, h3⟩ := h
    cases h3
    exact Bd.run_trans (Bd.run_one h1) (ih h2)

theorem bdNotes_append (a : Addr) (es fs : List BdEv) : bdNotes a (es ++ fs) = fs.foldl bdNote (bdNotes a es) := List.foldl_append ..

theorem Bd.kbind_err {s t : Bd} {i : Bool} {e : BdErr} (h : s.kbind i = (t, some e)) : t = s := by
  simp only [Bd.kbind] at h
  (repeat' split at h) <;> (try cases h) <;> rfl

theorem Bd.kbind_ok {s t : Bd} {i : Bool} (h : s.kbind i = (t, none)) :
    t.addr = s.addr ∧ t.sock = ⟨some s.addr.fam, some s.addr, s.sock.lis⟩ ∧ t.held = s.held ∧ t.up = s.up ∧ (s.addr.fam = .file ∧ s.addr.any = false → s.addr.key ∈ t.files) := by
  simp only [Bd.kbind] at h
  split at h
  · cases h
  · split at h
    · cases h
    · next g =>
      simp only [ne_eq, Decidable.not_not] at g
      split at h
      · cases h
      · split at h
        · cases h
        · cases h
          refine ⟨rfl, by simp [g], rfl, rfl, fun hh => ?_⟩
          simp only [if_pos hh]
          simp

theorem Bd.open_same (s : Bd) : s.open.addr = s.addr ∧ s.open.up = s.up ∧ s.open.held = s.held ∧ s.open.files = s.files ∧ s.open.sock.bound = s.sock.bound ∧ s.open.sock.lis = s.sock.lis := by
  unfold Bd.open
  split <;> exact ⟨rfl, rfl, rfl, rfl, rfl, rfl⟩

/-! ### the server -/

/-- What is always true of a server. -/
structure Bd.Srv (p : Addr × Option Addr) (s : Bd) : Prop where
  addr : p.1 = s.addr
  yes : ∀ a, p.2 = some a → s.up = true ∧ s.sock = ⟨some a.fam, some a, true⟩
  no : p.2 = none → s.sock.lis = false
  down : s.up = false → s.sock.bound = none ∧ s.sock.lis = false ∧ p.2 = none

theorem Bd.srv_step {p : Addr × Option Addr} {s s' : Bd} {a : BdAct} {es : List BdEv} (h : s.Srv p) (hs : s.step true a = some (s', es)) : s'.Srv (es.foldl bdNote p) := by
  obtain ⟨h1, h2, h3, h4⟩ := h
  obtain ⟨pa, po⟩ := p
  cases a with
  | setAddr a => cases hs; exact ⟨rfl, h2, h3, h4⟩
  | userOpen f =>
    simp only [Bd.step] at hs
    split at hs <;> cases hs
    next ho =>
    refine ⟨h1, fun a ha => ?_, h3, h4⟩
    have := (h2 a ha).2
    rw [this] at ho
    cases ho
  | start i l =>
    simp only [Bd.step, if_true, Bd.listen] at hs
    split at hs
    · next hu =>
      cases hs
      cases po with
      | none => exact ⟨h1, fun _ hh => by simp [bdNote] at hh, h3, h4⟩
      | some a => exact ⟨h1, h2, h3, h4⟩
    · next hu =>
      have hu : s.up = false := by simpa using hu
      obtain ⟨b1, b2, b3⟩ := h4 hu
      simp only at b3
      subst b3
      obtain ⟨o1, o2, _, _, o3, o4⟩ := Bd.open_same s
      generalize s.open = t at hs o1 o2 o3 o4
      cases hb : t.kbind i with
      | mk s1 e =>
        rw [hb] at hs
        cases e with
        | some e =>
          have := Bd.kbind_err hb
          subst this
          cases hs
          exact ⟨by simp only [List.foldl, bdNote]; rw [o1]; exact h1, fun _ hh => by simp [bdNote] at hh, fun _ => o4.trans b2, fun _ => ⟨o3.trans b1, o4.trans b2, by simp [bdNote]⟩⟩
        | none =>
          obtain ⟨k1, k2, _⟩ := Bd.kbind_ok hb
          simp only at hs
          split at hs
          · cases hs
            refine ⟨by simp only [List.foldl, bdNote]; rw [k1, o1]; exact h1, fun a hh => ?_, fun hh => by simp [bdNote] at hh, fun hh => by simp at hh⟩
            simp only [List.foldl, bdNote, if_true, Option.some.injEq] at hh
            subst hh
            simp only at h1
            exact ⟨rfl, by rw [k2, h1, o1]⟩
          · cases hs
            exact ⟨by simp only [List.foldl, bdNote]; rw [k1, o1]; exact h1, fun _ hh => by simp [bdNote] at hh, fun _ => by simp only [k2]; exact o4.trans b2, fun hh => by simp at hh⟩
  | stop =>
    simp only [Bd.step, true_or, if_true] at hs
    cases hs
    exact ⟨h1, fun _ hh => by simp [bdNote] at hh, fun _ => rfl, fun _ => ⟨rfl, rfl, rfl⟩⟩
  | hold a => cases hs; exact ⟨h1, h2, h3, h4⟩
  | release a => cases hs; exact ⟨h1, h2, h3, h4⟩
  | makeFile k => cases hs; exact ⟨h1, h2, h3, h4⟩
  | removeFile k => cases hs; exact ⟨h1, h2, h3, h4⟩

theorem Bd.srv_run {a : Addr} {held : List Addr} {files : List Nat} {as : List BdAct} {s : Bd} {es : List BdEv} (h : Bd.Run true (Bd.init a held files) as s es) : s.Srv (bdNotes a es) := by
  generalize h0 : Bd.init a held files = s0 at h
  induction h with
  | nil =>
    subst h0
    exact ⟨rfl, fun _ hh => by simp [bdNotes] at hh, fun _ => rfl, fun _ => ⟨rfl, rfl, rfl⟩⟩
  | snoc s1 s2 as a es fs _ hs ih =>
    rw [bdNotes_append]
    exact Bd.srv_step ih hs

/-- C98 for servers: the acceptor listens exactly if start_listen() returned true and stop_listen() was not called since, at the address configured when start_listen() was called, whatever was configured later. -/
theorem C98_listens (a : Addr) (held : List Addr) (files : List Nat) (as : List BdAct) (s : Bd) (es : List BdEv) (h : Bd.Run true (Bd.init a held files) as s es) :
    (∀ b, promised a es = some b → s.sock.lis = true ∧ s.sock.bound = some b) ∧ (s.sock.lis = true → ∃ b, promised a es = some b) := by
  have hg := Bd.srv_run h
  refine ⟨fun b hb => ?_, fun hl => ?_⟩
  · have := (hg.yes b hb).2
    rw [this]
    exact ⟨rfl, rfl⟩
  · cases hp : promised a es with
    | some b => exact ⟨b, rfl⟩
    | none => have := hg.no hp; rw [this] at hl; cases hl

/-- C98 for servers: whatever happened, after stop_listen() the server can listen at any address nobody else uses (for a unix domain socket: whose file does not exist). -/
theorem C98_listens_again (a : Addr) (held : List Addr) (files : List Nat) (as : List BdAct) (s : Bd) (es : List BdEv) (h : Bd.Run true (Bd.init a held files) as s es)
    (b : Addr) (hb : b ∉ s.held) (hf : b.fam = .file → b.key ∉ s.files) (inval : Bool) :
    ∃ s' fs, Bd.Run true s [.stop, .setAddr b, .start inval true] s' fs ∧ promised a (es ++ fs) = some b := by
  have hx : ∃ s', Bd.exec true s [.stop, .setAddr b, .start inval true] = some (s', [.stopped, .set b, .ret true]) := by
    simp only [Bd.exec, Bd.step, true_or, if_true, Option.bind_eq_bind, Option.bind_some, Bd.listen, Bool.false_eq_true, if_false, Bd.open, KSock.closed, Bd.kbind, reduceCtorEq, ne_eq, not_true_eq_false]
    rw [if_neg (by rintro ⟨_, h1 | ⟨h1, h2⟩⟩ <;> first | exact hb h1 | exact hf h1 h2)]
    exact ⟨_, rfl⟩
  obtain ⟨s', hx⟩ := hx
  refine ⟨s', _, Bd.exec_run hx, ?_⟩
  unfold promised
  rw [bdNotes_append]
  simp [bdNote]

/-! ### the UDP socket -/

/-- All addresses configured, and the socket if the user opens it, are of the family `f`. -/
def BdAct.Of (f : Fam) : BdAct → Prop
  | .setAddr a => a.fam = f
  | .userOpen g => g = f
  | _ => True

/-- What is always true of a UDP socket. -/
structure Bd.Udp (f : Fam) (p : Addr × Option Addr) (s : Bd) : Prop where
  addr : p.1 = s.addr
  fam : s.addr.fam = f
  opened : s.sock.opened = none ∨ s.sock.opened = some f
  shut : s.sock.opened = none → s.sock.bound = none ∧ s.up = false
  yes : ∀ a, p.2 = some a → s.up = true ∧ (a.any = false → s.sock.bound = some a) ∧ (a.any = true → s.sock.bound = none)
  up : s.up = true → ∃ a, p.2 = some a
  down : s.up = false → s.sock.bound = none

theorem Bd.udp_step {f : Fam} {p : Addr × Option Addr} {s s' : Bd} {a : BdAct} {es : List BdEv} (h : s.Udp f p) (ha : a.Of f) (hs : s.step false a = some (s', es)) : s'.Udp f (es.foldl bdNote p) := by
  obtain ⟨h1, h2, h3, h4, h5, h6, h7⟩ := h
  obtain ⟨pa, po⟩ := p
  cases a with
  | setAddr a => cases hs; exact ⟨rfl, ha, h3, h4, h5, h6, h7⟩
  | userOpen g =>
    simp only [Bd.step] at hs
    split at hs <;> cases hs
    next ho => exact ⟨h1, h2, .inr (congrArg some ha), fun hh => by simp at hh, h5, h6, h7⟩
  | start i l =>
    simp only [Bd.step, Bool.false_eq_true, if_false, Bd.startUdp] at hs
    split at hs
    · next hu =>
      cases hs
      obtain ⟨a, rfl⟩ : ∃ a, po = some a := h6 hu
      exact ⟨h1, h2, h3, h4, h5, h6, h7⟩
    · next hu =>
      have hu : s.up = false := by simpa using hu
      have hpo : po = none := by
        cases po with
        | none => rfl
        | some a => have := (h5 a rfl).1; rw [hu] at this; cases this
      subst hpo
      have b1 := h7 hu
      obtain ⟨o1, o2, _, _, o3, o4⟩ := Bd.open_same s
      have o5 : s.open.sock.opened = some f := by
        unfold Bd.open
        split
        · exact congrArg some h2
        · next hh => rcases h3 with h3 | h3
                     · exact absurd h3 hh
                     · exact h3
      generalize s.open = t at hs o1 o2 o3 o4 o5
      simp only at h1
      split at hs
      · next hany =>
        cases hs
        refine ⟨by simp only [List.foldl, bdNote]; rw [o1]; exact h1, by rw [o1]; exact h2, .inr o5, fun hh => by simp [o5] at hh, fun a hh => ?_, fun _ => ⟨pa, by simp [bdNote]⟩, fun hh => by simp at hh⟩
        simp only [List.foldl, bdNote, if_true, Option.some.injEq] at hh
        subst hh
        refine ⟨rfl, fun hh => ?_, fun _ => o3.trans b1⟩
        rw [h1, ← o1, hany] at hh
        cases hh
      · next hany =>
        cases hb : t.kbind i with
        | mk s1 e =>
          rw [hb] at hs
          cases e with
          | none =>
            cases hs
            obtain ⟨k1, k2, _⟩ := Bd.kbind_ok hb
            refine ⟨by simp only [List.foldl, bdNote]; rw [k1, o1]; exact h1, by simp only [k1, o1]; exact h2, .inr (by simp only [k2, o1, h2]), fun hh => by simp [k2] at hh, fun a hh => ?_, fun _ => ⟨pa, by simp [bdNote]⟩, fun hh => by simp at hh⟩
            simp only [List.foldl, bdNote, if_true, Option.some.injEq] at hh
            subst hh
            refine ⟨rfl, fun _ => by simp only [k2, o1, h1], fun hh => ?_⟩
            rw [h1, ← o1] at hh
            exact absurd hh hany
          | some e =>
            have := Bd.kbind_err hb
            subst this
            have hne : e ≠ .invalidArgument := by
              simp only [Bd.kbind, o5, o1, h2, o3, b1] at hb
              simp only [reduceCtorEq, if_false, ne_eq, not_true_eq_false] at hb
              split at hb
              · cases hb; simp
              · exact absurd (congrArg Prod.snd hb) (by simp)
            cases e with
            | invalidArgument => exact absurd rfl hne
            | _ =>
              cases hs
              exact ⟨by simp only [List.foldl, bdNote]; rw [o1]; exact h1, by rw [o1]; exact h2, .inr o5, fun hh => by simp [o5] at hh, fun _ hh => by simp [bdNote] at hh, fun hh => absurd (hu.symm.trans (o2.symm.trans hh)) (by simp), fun _ => o3.trans b1⟩
  | stop =>
    simp only [Bd.step, Bool.false_eq_true, false_or] at hs
    split at hs
    · cases hs
      exact ⟨h1, h2, .inl rfl, fun _ => ⟨rfl, rfl⟩, fun _ hh => by simp [bdNote] at hh, fun hh => by simp at hh, fun _ => rfl⟩
    · cases hs
      exact ⟨h1, h2, h3, h4, h5, h6, h7⟩
  | hold a => cases hs; exact ⟨h1, h2, h3, h4, h5, h6, h7⟩
  | release a => cases hs; exact ⟨h1, h2, h3, h4, h5, h6, h7⟩
  | makeFile k => cases hs; exact ⟨h1, h2, h3, h4, h5, h6, h7⟩
  | removeFile k => cases hs; exact ⟨h1, h2, h3, h4, h5, h6, h7⟩

theorem Bd.udp_run {a : Addr} {held : List Addr} {files : List Nat} {as : List BdAct} {s : Bd} {es : List BdEv} (h : Bd.Run false (Bd.init a held files) as s es) (ha : ∀ x ∈ as, x.Of a.fam) : s.Udp a.fam (bdNotes a es) := by
  generalize h0 : Bd.init a held files = s0 at h
  induction h with
  | nil =>
    subst h0
    exact ⟨rfl, rfl, .inl rfl, fun _ => ⟨rfl, rfl⟩, fun _ hh => by simp [bdNotes] at hh, fun hh => by simp [Bd.init] at hh, fun _ => rfl⟩
  | snoc s1 s2 as a es fs _ hs ih =>
    rw [bdNotes_append]
    exact Bd.udp_step (ih (fun x hx => ha x (by simp [hx]))) (ha a (by simp)) hs

/-- C98 for UDP sockets whose addresses are all of one family: as long as the socket is started, it is bound to the address configured when it was started, if there was one. -/
theorem C98_bound_partial (a : Addr) (held : List Addr) (files : List Nat) (as : List BdAct) (s : Bd) (es : List BdEv) (h : Bd.Run false (Bd.init a held files) as s es) (ha : ∀ x ∈ as, x.Of a.fam) :
    (s.up = true ↔ promised a es ≠ none) ∧ ∀ b, promised a es = some b → (b.any = false → s.sock.bound = some b) ∧ (b.any = true → s.sock.bound = none) := by
  have hg := Bd.udp_run h ha
  refine ⟨⟨fun hu => ?_, fun hu => ?_⟩, fun b hb => (hg.yes b hb).2⟩
  · obtain ⟨b, hb⟩ := hg.up hu
    unfold promised
    rw [hb]
    simp
  · cases hp : promised a es with
    | none => exact absurd hp hu
    | some b => exact (hg.yes b hp).1

/-- C98 for UDP sockets whose addresses are all of one family: whatever happened, after closing it can be started at any address of this family nobody else uses. -/
theorem C98_starts_again_partial (a : Addr) (held : List Addr) (files : List Nat) (as : List BdAct) (s : Bd) (es : List BdEv) (h : Bd.Run false (Bd.init a held files) as s es) (ha : ∀ x ∈ as, x.Of a.fam)
    (b : Addr) (hbf : b.fam = a.fam) (hb : b ∉ s.held) (hf : b.fam = .file → b.key ∉ s.files) (inval : Bool) :
    ∃ s' fs, Bd.Run false s [.stop, .setAddr b, .start inval true] s' fs ∧ promised a (es ++ fs) = some b := by
  -- closing
  obtain ⟨s1, e1, r1⟩ : ∃ s1 e1, s.step false .stop = some (s1, e1) := ⟨_, _, rfl⟩
  have c1 : s1.up = false ∧ s1.held = s.held ∧ s1.files = s.files := by
    simp only [Bd.step, Bool.false_eq_true, false_or] at r1
    split at r1 <;> cases r1
    · exact ⟨rfl, rfl, rfl⟩
    · next hu => exact ⟨by simpa using hu, rfl, rfl⟩
  -- the new address
  obtain ⟨s2, e2, r2⟩ : ∃ s2 e2, s1.step false (.setAddr b) = some (s2, e2) := ⟨_, _, rfl⟩
  have c2 : s2.up = false ∧ s2.held = s.held ∧ s2.files = s.files ∧ s2.addr = b ∧ e2 = [.set b] := by
    cases r2
    exact ⟨c1.1, c1.2.1, c1.2.2, rfl, rfl⟩
  have hrun2 := Bd.run_trans h (Bd.run_trans (Bd.run_one r1) (Bd.run_one r2))
  have hg := Bd.udp_run hrun2 (by
    intro x hx
    rcases List.mem_append.1 hx with hx | hx
    · exact ha x hx
    · simp only [List.cons_append, List.nil_append, List.mem_cons, List.not_mem_nil, or_false] at hx
      rcases hx with rfl | rfl
      · trivial
      · exact hbf)
  have hpn : (bdNotes a (es ++ (e1 ++ e2))).2 = none := by
    cases hp : (bdNotes a (es ++ (e1 ++ e2))).2 with
    | none => rfl
    | some x => have := (hg.yes x hp).1; rw [c2.1] at this; cases this
  have hpa := hg.addr
  rw [c2.2.2.2.1] at hpa
  -- starting
  have r3 : ∃ s3, s2.step false (.start inval true) = some (s3, [.ret true]) := by
    obtain ⟨o1, o2, o6, o7, o3, o4⟩ := Bd.open_same s2
    have o5 : s2.open.sock.opened = some b.fam := by
      unfold Bd.open
      split
      · rw [c2.2.2.2.1]
      · next hh => rcases hg.opened with h3 | h3
                   · exact absurd h3 hh
                   · rw [h3, hbf]
    simp only [Bd.step, Bool.false_eq_true, if_false, Bd.startUdp, c2.1]
    split
    · exact ⟨_, rfl⟩
    · have hk : ∃ t, s2.open.kbind inval = (t, none) := by
        simp only [Bd.kbind, o5, o1, c2.2.2.2.1, o3, hg.down c2.1, o6, o7, c2.2.1, c2.2.2.1]
        simp only [reduceCtorEq, if_false, ne_eq, not_true_eq_false]
        rw [if_neg (by rintro ⟨_, h1 | ⟨h1, h2⟩⟩ <;> first | exact hb h1 | exact hf h1 h2)]
        exact ⟨_, rfl⟩
      obtain ⟨t, hk⟩ := hk
      rw [hk]
      exact ⟨_, rfl⟩
  obtain ⟨s3, r3⟩ := r3
  refine ⟨s3, (e1 ++ e2) ++ [.ret true], Bd.run_trans (Bd.run_trans (Bd.run_one r1) (Bd.run_one r2)) (Bd.run_one r3), ?_⟩
  unfold promised
  rw [← List.append_assoc, bdNotes_append]
  generalize bdNotes a (es ++ (e1 ++ e2)) = q at hpn hpa
  obtain ⟨qa, qo⟩ := q
  simp only at hpn hpa
  subst hpn hpa
  simp [bdNote]

/-! ### where C98 is false -/

/-- A property of states that is kept by the actions allowed, in which starting fails. -/
theorem Bd.never {srv : Bool} {P : Bd → Prop} {Q : BdAct → Prop} (hk : ∀ s a s' es, P s → Q a → s.step srv a = some (s', es) → P s' ∧ .ret true ∉ es) {s s' : Bd} {as : List BdAct} {es : List BdEv} (hs : P s)
    (h : Bd.Run srv s as s' es) (ha : ∀ a ∈ as, Q a) : P s' ∧ .ret true ∉ es := by
  induction h with
  | nil => exact ⟨hs, by simp⟩
  | snoc s1 s2 as a es fs _ h2 ih =>
    obtain ⟨i1, i2⟩ := ih (fun x hx => ha x (by simp [hx]))
    obtain ⟨j1, j2⟩ := hk _ _ _ _ i1 (ha a (by simp)) h2
    exact ⟨j1, by simp [i2, j2]⟩

/-- C98 is false of unix domain sockets, servers as well as UDP sockets: closing leaves the file behind, so after the first use of an address starting at this address fails, whatever happens, until somebody removes the file. -/
theorem C98_fails_unix (srv : Bool) (k : Nat) : ∃ s es, Bd.Run srv (Bd.init ⟨.file, false, k⟩ [] []) [.start false true, .stop] s es ∧ es = [.ret true, .stopped] ∧
    ∀ as s' fs, Bd.Run srv s as s' fs → (∀ a ∈ as, a ≠ .removeFile k ∧ (∀ b, a ≠ .setAddr b) ∧ (∀ f, a ≠ .userOpen f)) → .ret true ∉ fs := by
  have hx : Bd.exec srv (Bd.init ⟨.file, false, k⟩ [] []) [.start false true, .stop] = some (⟨KSock.closed, ⟨.file, false, k⟩, false, [], [k]⟩, [.ret true, .stopped]) := by
    cases srv <;> simp [Bd.exec, Bd.step, Bd.init, Bd.listen, Bd.startUdp, Bd.open, Bd.kbind, KSock.closed]
  refine ⟨_, _, Bd.exec_run hx, rfl, ?_⟩
  intro as s' fs hr ha
  refine (Bd.never (P := fun s => s.addr = ⟨.file, false, k⟩ ∧ k ∈ s.files ∧ s.up = false ∧ s.sock.bound = none ∧ (s.sock.opened = none ∨ s.sock.opened = some .file))
    (Q := fun a => a ≠ .removeFile k ∧ (∀ b, a ≠ .setAddr b) ∧ (∀ f, a ≠ .userOpen f)) ?_ ⟨rfl, by simp, rfl, rfl, .inl rfl⟩ hr ha).2
  intro s a s' es ⟨p1, p2, p3, p4, p5⟩ ⟨q1, q2, q3⟩ hs
  cases a with
  | setAddr b => exact absurd rfl (q2 b)
  | userOpen f => exact absurd rfl (q3 f)
  | start i l =>
    obtain ⟨o1, o2, o6, o7, o3, o4⟩ := Bd.open_same s
    have o5 : s.open.sock.opened = some .file := by
      unfold Bd.open
      split
      · simp [p1]
      · next hh => exact p5.resolve_left hh
    have hk : s.open.kbind i = (s.open, some .inUse) := by
      simp only [Bd.kbind, o5, o1, p1, o3, p4, o7]
      simp [p2]
    cases srv with
    | true =>
      simp only [Bd.step, if_true, Bd.listen, p3, hk, Bool.false_eq_true, if_false] at hs
      cases hs
      exact ⟨⟨o1.trans p1, o7 ▸ p2, o2.trans p3, o3.trans p4, .inr o5⟩, by simp⟩
    | false =>
      simp only [Bd.step, Bool.false_eq_true, if_false, Bd.startUdp, p3, o1, p1, hk] at hs
      cases hs
      exact ⟨⟨o1.trans p1, o7 ▸ p2, o2.trans p3, o3.trans p4, .inr o5⟩, by simp⟩
  | stop =>
    simp only [Bd.step] at hs
    split at hs <;> cases hs
    · exact ⟨⟨p1, p2, rfl, rfl, .inl rfl⟩, by simp⟩
    · exact ⟨⟨p1, p2, p3, p4, p5⟩, by simp⟩
  | hold b => cases hs; exact ⟨⟨p1, p2, p3, p4, p5⟩, by simp⟩
  | release b => cases hs; exact ⟨⟨p1, p2, p3, p4, p5⟩, by simp⟩
  | makeFile j => cases hs; exact ⟨⟨p1, by simp [p2], p3, p4, p5⟩, by simp⟩
  | removeFile j =>
    cases hs
    refine ⟨⟨p1, ?_, p3, p4, p5⟩, by simp⟩
    simp only [List.mem_filter, p2, true_and, decide_eq_true_eq]
    rintro rfl
    exact q1 rfl

/-- C98 is false of a server whose listen() failed: from then on start_listen() fails, whatever happens, until stop_listen() is called, because the server takes itself for listening; and its acceptor keeps the address. -/
theorem C98_fails_listen (a : Addr) (hf : a.fam ≠ .file) : ∃ s es, Bd.Run true (Bd.init a [] []) [.start false false] s es ∧ es = [.ret false] ∧ s.sock.bound = some a ∧
    ∀ as s' fs, Bd.Run true s as s' fs → (∀ b ∈ as, b ≠ .stop) → .ret true ∉ fs := by
  have hx : Bd.exec true (Bd.init a [] []) [.start false false] = some (⟨⟨some a.fam, some a, false⟩, a, true, [], []⟩, [.ret false]) := by
    simp [Bd.exec, Bd.step, Bd.init, Bd.listen, Bd.open, Bd.kbind, KSock.closed, hf]
  refine ⟨_, _, Bd.exec_run hx, rfl, rfl, ?_⟩
  intro as s' fs hr ha
  refine (Bd.never (P := fun s => s.up = true) (Q := fun a => a ≠ .stop) ?_ rfl hr ha).2
  intro s a s' es hp hq hs
  cases a with
  | stop => exact absurd rfl hq
  | start i l =>
    simp only [Bd.step, if_true, Bd.listen, hp] at hs
    cases hs
    exact ⟨hp, by simp⟩
  | userOpen f =>
    simp only [Bd.step] at hs
    split at hs <;> cases hs
    exact ⟨hp, by simp⟩
  | _ => cases hs; exact ⟨hp, by simp⟩

/-- C98 is false of a server that found its address in use and is then given an address of another family: start_listen() fails, whatever happens, until stop_listen() is called, because the acceptor stays open for the old family. -/
theorem C98_fails_family (a b : Addr) (hany : a.any = false) (hab : a.fam ≠ b.fam) : ∃ s es, Bd.Run true (Bd.init a [a] []) [.start false true, .setAddr b, .release a] s es ∧ es = [.ret false, .set b] ∧ s.held = [] ∧
    ∀ as s' fs, Bd.Run true s as s' fs → (∀ x ∈ as, x ≠ .stop ∧ ∀ c, x ≠ .setAddr c) → .ret true ∉ fs := by
  have hx : Bd.exec true (Bd.init a [a] []) [.start false true, .setAddr b, .release a] = some (⟨⟨some a.fam, none, false⟩, b, false, [], []⟩, [.ret false, .set b]) := by
    simp [Bd.exec, Bd.step, Bd.init, Bd.listen, Bd.open, Bd.kbind, KSock.closed, hany]
  refine ⟨_, _, Bd.exec_run hx, rfl, rfl, ?_⟩
  intro as s' fs hr ha
  refine (Bd.never (P := fun s => s.up = false ∧ s.sock.opened = some a.fam ∧ s.addr = b) (Q := fun x => x ≠ .stop ∧ ∀ c, x ≠ .setAddr c) ?_ ⟨rfl, rfl, rfl⟩ hr ha).2
  intro s x s' es ⟨p1, p2, p3⟩ ⟨q1, q2⟩ hs
  cases x with
  | stop => exact absurd rfl q1
  | setAddr c => exact absurd rfl (q2 c)
  | start i l =>
    have ho : s.open = s := by simp [Bd.open, p2]
    have hk : ∃ e, s.kbind i = (s, some e) := by
      simp only [Bd.kbind, p2, p3]
      simp [hab]
    obtain ⟨e, hk⟩ := hk
    simp only [Bd.step, if_true, Bd.listen, p1, ho, hk, Bool.false_eq_true, if_false] at hs
    cases hs
    exact ⟨⟨p1, p2, p3⟩, by simp⟩
  | userOpen f => simp [Bd.step, p2] at hs
  | _ => cases hs; exact ⟨⟨p1, p2, p3⟩, by simp⟩

/-- C98 is false of a UDP socket that found its IPv6 address in use and is then given an IPv4 address (Linux reports this as invalid argument, which the library ignores because it means "bound already" otherwise): it starts, and is not
bound to any address as long as it is not closed. -/
theorem C98_fails_deaf (k : Nat) : ∃ s es, Bd.Run false (Bd.init ⟨.v6, false, k⟩ [⟨.v6, false, k⟩] []) [.start true true, .setAddr ⟨.v4, false, k⟩, .start true true] s es ∧
    es = [.ret false, .set ⟨.v4, false, k⟩, .ret true] ∧ s.up = true ∧ ∀ as s' fs, Bd.Run false s as s' fs → (∀ x ∈ as, x ≠ .stop) → s'.up = true ∧ s'.sock.bound = none := by
  have hx : Bd.exec false (Bd.init ⟨.v6, false, k⟩ [⟨.v6, false, k⟩] []) [.start true true, .setAddr ⟨.v4, false, k⟩, .start true true] =
      some (⟨⟨some .v6, none, false⟩, ⟨.v4, false, k⟩, true, [⟨.v6, false, k⟩], []⟩, [.ret false, .set ⟨.v4, false, k⟩, .ret true]) := by
    simp [Bd.exec, Bd.step, Bd.init, Bd.startUdp, Bd.open, Bd.kbind, KSock.closed]
  refine ⟨_, _, Bd.exec_run hx, rfl, rfl, ?_⟩
  intro as s' fs hr ha
  generalize hs0 : (Bd.mk ⟨some .v6, none, false⟩ ⟨.v4, false, k⟩ true [⟨.v6, false, k⟩] []) = s0 at hr
  induction hr with
  | nil => subst hs0; exact ⟨rfl, rfl⟩
  | snoc s1 s2 as x es fs _ h2 ih =>
    obtain ⟨i1, i2⟩ := ih (fun y hy => ha y (by simp [hy]))
    have hq := ha x (by simp)
    cases x with
    | stop => exact absurd rfl hq
    | start i l => simp only [Bd.step, Bool.false_eq_true, if_false, Bd.startUdp, i1, if_true] at h2; cases h2; exact ⟨i1, i2⟩
    | userOpen f =>
      simp only [Bd.step] at h2
      split at h2 <;> cases h2
      exact ⟨i1, i2⟩
    | _ => cases h2; exact ⟨i1, i2⟩

/-! ### runs -/

/-- Non-vacuity: a server listens, is given another address meanwhile, stops and listens there; the first attempt fails because somebody else is there. -/
theorem C98_demo_server : ∃ s es, Bd.Run true (Bd.init ⟨.v4, false, 5050⟩ [] []) [.start false true, .setAddr ⟨.v4, false, 6060⟩, .start false true, .hold ⟨.v4, false, 6060⟩, .stop, .start false true, .release ⟨.v4, false, 6060⟩, .start false true] s es ∧
    es = [.ret true, .set ⟨.v4, false, 6060⟩, .ret false, .stopped, .ret false, .ret true] ∧ s.sock = ⟨some .v4, some ⟨.v4, false, 6060⟩, true⟩ ∧ promised ⟨.v4, false, 5050⟩ es = some ⟨.v4, false, 6060⟩ :=
  ⟨_, _, Bd.exec_run rfl, by decide, by decide, by decide⟩

/-- Non-vacuity: a UDP socket that the user opened, first without an address, then with one. -/
theorem C98_demo_udp : ∃ s es, Bd.Run false (Bd.init ⟨.v4, true, 0⟩ [] []) [.userOpen .v4, .start false true, .stop, .setAddr ⟨.v4, false, 7⟩, .start false true, .start false true] s es ∧
    es = [.ret true, .stopped, .set ⟨.v4, false, 7⟩, .ret true, .ret true] ∧ s.sock = ⟨some .v4, some ⟨.v4, false, 7⟩, false⟩ ∧ promised ⟨.v4, true, 0⟩ es = some ⟨.v4, false, 7⟩ :=
  ⟨_, _, Bd.exec_run rfl, by decide, by decide, by decide⟩

end StAsio
