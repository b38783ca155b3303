import Verif.Lemmas.Wrapped3
import Verif.Props.C01_C03_Unpacker
/-!
C67: Messages that are buffer objects (unique_buffer, shared_buffer with packer2 and unpacker2) behave like byte strings: a send function takes the bytes its messages hold at the call, a refused message stays where it is, what a socket writes are the accepted
bytes in order, whatever the program does with its variables afterwards; received messages are those of the wrapped unpacker.
-/
set_option linter.unusedSimpArgs false
set_option autoImplicit false
namespace StAsio

theorem Wb.good_init (n k : Nat) : (Wb.init n k).Good := by
  refine ⟨?_, ?_, ?_, ?_, ?_, rfl⟩
  · intro h hh
    simp only [Wb.init, List.mem_replicate] at hh
    rw [hh.2]; exact HOk.none _
  · intro h hh; simp [Wb.init] at hh
  · intro a ha h hh
    simp only [Wb.init, List.mem_replicate] at ha
    rw [ha.2] at hh; simp [Q.init] at hh
  · intro a ha h hh
    simp only [Wb.init, List.mem_replicate] at ha
    rw [ha.2] at hh; simp at hh
  · intro a ha
    simp only [Wb.init, List.mem_replicate] at ha
    rw [ha.2]; rfl

theorem Wb.view_init (n k : Nat) : (Wb.init n k).view = IMsgs.init n k := by
  simp [Wb.init, Wb.view, IMsgs.init, hval, WSock.bytes, Q.init]

theorem IMsgs.run_snoc (hl : Nat) (s : IMsgs) (l : List (WAct × Bool)) (a : WAct) (ok : Bool) : IMsgs.run hl s (l ++ [(a, ok)]) = (IMsgs.run hl s l).step hl a ok := by
  induction l generalizing s with
  | nil => rfl
  | cons x l ih =>
    obtain ⟨b, o⟩ := x
    simp only [List.cons_append, IMsgs.run, ih]

theorem Wb.run_sim {c : Cfg} (hv : c.Valid) {nd : Bool} (hr : c.bufSize < 256 ^ c.headLen ∨ nd = false) {shared : Bool} {limit : Nat} {P : Wb → WAct → Prop} (hP : ∀ s a, s.Good → P s a → s.Alone a) {n k : Nat} {as : List (WAct × Bool)} {s : Wb}
    (h : Wb.Run c nd shared limit P (Wb.init n k) as s) : s.Good ∧ s.view = IMsgs.run c.headLen (IMsgs.init n k) as := by
  induction h with
  | nil => exact ⟨Wb.good_init n k, Wb.view_init n k⟩
  | snoc s1 s2 as a ok hrun hp hs ih =>
    obtain ⟨h1, h2⟩ := Wb.sim hv hr ih.1 (hP _ _ ih.1 hp) hs
    exact ⟨h1, by rw [h2, ih.2, IMsgs.run_snoc]⟩

/-- What can be said of every message variable, every list and every socket of a program: they look as if messages were byte strings, and is_send_buffer_available() looks at the bytes that are really waiting. -/
def Wb.LikeStrings (s : Wb) (i : IMsgs) : Prop :=
  (∀ v, hval s.objs (s.var v) = i.var v) ∧ s.can.map (hval s.objs) = i.can ∧ s.bad = false ∧
  ∀ (j : Nat) (k : WSock), s.socks[j]? = some k →
    i.out[j]? = some (k.wire ++ (k.flight.map (hval s.objs)).flatten ++ (k.q.items.map (hval s.objs)).flatten) ∧
    k.q.total = ((k.q.items.map (hval s.objs)).flatten.length) % 2 ^ 64

theorem Wb.like {s : Wb} {i : IMsgs} (hg : s.Good) (hv : s.view = i) : s.LikeStrings i := by
  subst hv
  refine ⟨fun v => (Wb.view_var s v).symm, rfl, hg.fine, ?_⟩
  intro j k hk
  refine ⟨by simp [Wb.view, hk, WSock.bytes], ?_⟩
  have := hg.exact k (List.mem_of_getElem? hk)
  unfold Q.Exact at this
  rw [this, sumSize_hsize, List.length_flatten]

/-- shared_buffer: any program that changes an object only while its use_count() is 1, and that does not give one variable by reference as both messages of a call. Partial: see C67_fails_changed, C67_fails_accounting, C67_fails_in_flight, C67_fails_same_variable for programs that do. -/
theorem C67_shared_partial (c : Cfg) (hv : c.Valid) (nd : Bool) (hr : c.bufSize < 256 ^ c.headLen ∨ nd = false) (limit n k : Nat) (as : List (WAct × Bool)) (s : Wb)
    (h : Wb.Run c nd true limit (fun s a => match a with
      | .change v _ => ∀ o, s.var v = some o → s.useCount o = 1
      | .send2 _ _ _ byRef v w => byRef = true → v ≠ w
      | _ => True) (Wb.init n k) as s) :
    s.LikeStrings (IMsgs.run c.headLen (IMsgs.init n k) as) := by
  have := Wb.run_sim hv hr (fun s a _ hp => by cases a <;> first | exact trivial | exact hp) h
  exact Wb.like this.1 this.2

/-- unique_buffer: every program, whatever it changes and when; only the two messages of a call have to be different variables. -/
theorem C67_unique (c : Cfg) (hv : c.Valid) (nd : Bool) (hr : c.bufSize < 256 ^ c.headLen ∨ nd = false) (limit n k : Nat) (as : List (WAct × Bool)) (s : Wb)
    (h : Wb.Run c nd false limit (fun _ a => match a with
      | .send2 _ _ _ _ v w => v ≠ w
      | _ => True) (Wb.init n k) as s) :
    s.LikeStrings (IMsgs.run c.headLen (IMsgs.init n k) as) ∧ ∀ o, s.useCount o ≤ 1 := by
  have key : (s.Good ∧ s.view = IMsgs.run c.headLen (IMsgs.init n k) as) ∧ ∀ o, s.useCount o ≤ 1 := by
    induction h with
    | nil =>
      refine ⟨⟨Wb.good_init n k, Wb.view_init n k⟩, ?_⟩
      intro o
      have : (Wb.init n k).useCount o = 0 := by
        apply List.count_eq_zero.mpr
        simp [Wb.handles, Wb.init, Q.init, List.mem_replicate]
      omega
    | snoc s1 s2 as a ok hrun hp hs ih =>
      obtain ⟨⟨i1, i2⟩, i3⟩ := ih
      have hal : s1.Alone a := by
        cases a with
        | change v b =>
          intro o ho
          have h1 := i3 o
          have h2 : 0 < s1.useCount o := List.count_pos_iff.mpr (List.mem_append_left _ (List.mem_append_left _ (List.mem_of_getElem? (var_get ho))))
          omega
        | send2 i native ovf byRef v w => exact fun _ => hp
        | _ => exact trivial
      obtain ⟨h1, h2⟩ := Wb.sim hv hr i1 hal hs
      refine ⟨⟨h1, by rw [h2, i2, IMsgs.run_snoc]⟩, ?_⟩
      intro o
      have := Wb.unique_step i1 hs o
      split at this
      · next e =>
        have := Wb.new_unused i1
        subst e
        omega
      · have := i3 o
        omega
  exact ⟨Wb.like key.1.1 key.1.2, key.2⟩

/-- A message is refused only because the send buffer is full and overflow was not allowed, or because it is too long for a frame. -/
theorem C67_refused (c : Cfg) (nd shared : Bool) (limit : Nat) (s s2 : Wb) (a : WAct) (h : s.step c nd shared limit a = some (s2, false)) :
    s2 = s ∧ ((∃ (i : Nat) (k : WSock), s.socks[i]? = some k ∧ limit ≤ k.q.total) ∨ ∃ hs : List Hdl, maxMsgSize c < (hs.map (hval s.objs)).flatten.length ∧ ∀ x ∈ hs, x ∈ s.can ∨ ∃ v, x = s.var v) := by
  have hlen : ∀ l : List Bytes, sizeInByte l = l.flatten.length := by
    intro l
    induction l with
    | nil => rfl
    | cons a l ih => simp only [sizeInByte, ih, List.flatten_cons, List.length_append]
  have hp : ∀ hs, pack2 c nd s.objs hs = some none → maxMsgSize c < (hs.map (hval s.objs)).flatten.length := by
    intro hs h
    unfold pack2 at h
    simp only [hlen] at h
    split at h
    · assumption
    · simp at h
  cases a with
  | send i native ovf byRef v =>
    simp only [Wb.step] at h
    split at h
    rotate_left
    · simp at h
    split at h
    · simp at h
    next k hk =>
    split at h
    · next hf => simp only [Option.some.injEq, Prod.mk.injEq, and_true] at h; exact ⟨h.symm, Or.inl ⟨i, k, hk, by omega⟩⟩
    · split at h
      · simp at h
      split at h
      · simp at h
      · next hpk => simp only [Option.some.injEq, Prod.mk.injEq, and_true] at h; exact ⟨h.symm, Or.inr ⟨_, hp _ hpk, by simp; exact Or.inr ⟨v, rfl⟩⟩⟩
      · simp at h
  | send2 i native ovf byRef v w =>
    simp only [Wb.step] at h
    split at h
    rotate_left
    · simp at h
    split at h
    · simp at h
    next k hk =>
    split at h
    · next hf => simp only [Option.some.injEq, Prod.mk.injEq, and_true] at h; exact ⟨h.symm, Or.inl ⟨i, k, hk, by omega⟩⟩
    · split at h
      · simp at h
      split at h
      · simp at h
      · next hpk => simp only [Option.some.injEq, Prod.mk.injEq, and_true] at h; exact ⟨h.symm, Or.inr ⟨_, hp _ hpk, by simp; exact ⟨Or.inr ⟨v, rfl⟩, Or.inr ⟨w, rfl⟩⟩⟩⟩
      · simp at h
  | sendList i native ovf =>
    simp only [Wb.step] at h
    split at h
    · simp at h
    next k hk =>
    split at h
    · next hf => simp only [Option.some.injEq, Prod.mk.injEq, and_true] at h; exact ⟨h.symm, Or.inl ⟨i, k, hk, by omega⟩⟩
    · split at h
      · simp at h
      split at h
      · simp at h
      · next hpk => simp only [Option.some.injEq, Prod.mk.injEq, and_true] at h; exact ⟨h.symm, Or.inr ⟨_, hp _ hpk, fun x hx => Or.inl hx⟩⟩
      · simp at h
  | change v b => simp only [Wb.step] at h; split at h <;> simp at h
  | wrote i => simp only [Wb.step] at h; split at h <;> simp at h
  | take i max => simp only [Wb.step] at h; split at h; (· simp at h); split at h <;> simp at h
  | _ => simp only [Wb.step] at h; split at h <;> simp at h

/-- From the execution function to runs. -/
theorem Wb.exec_run {c : Cfg} {nd shared : Bool} {limit : Nat} {P : Wb → WAct → Prop} (hP : ∀ s a, P s a) {s s2 : Wb} {as : List WAct} {l : List (WAct × Bool)} (h : Wb.exec c nd shared limit s as = some (s2, l)) :
    Wb.Run c nd shared limit P s l s2 := by
  suffices hh : ∀ (as : List WAct) (s s1 s2 : Wb) (l0 l : List (WAct × Bool)), Wb.Run c nd shared limit P s l0 s1 → Wb.exec c nd shared limit s1 as = some (s2, l) → Wb.Run c nd shared limit P s (l0 ++ l) s2 by
    simpa using hh as s s s2 [] l (.nil s) h
  intro as
  induction as with
  | nil =>
    intro s s1 s2 l0 l hr h
    simp only [Wb.exec, Option.some.injEq, Prod.mk.injEq] at h
    obtain ⟨rfl, rfl⟩ := h
    simpa using hr
  | cons a as ih =>
    intro s s1 s2 l0 l hr h
    simp only [Wb.exec, Option.bind_eq_bind, Option.bind_eq_some_iff, Prod.exists, Option.pure_def, Option.some.injEq, Prod.mk.injEq] at h
    obtain ⟨s3, ok, hs, s4, l', h', rfl, rfl⟩ := h
    have := ih s s3 s4 (l0 ++ [(a, ok)]) l' (.snoc _ _ _ _ _ _ hr (hP _ _) hs) h'
    simpa using this

/-- A sequence of actions whose every step meets `P`, decidably. -/
def Wb.okRun (c : Cfg) (nd shared : Bool) (limit : Nat) (P : Wb → WAct → Bool) : Wb → List WAct → Bool
  | _, [] => true
  | s, a :: as => P s a && match s.step c nd shared limit a with
    | none => false
    | some (s, _) => Wb.okRun c nd shared limit P s as

theorem Wb.exec_run_if {c : Cfg} {nd shared : Bool} {limit : Nat} {P : Wb → WAct → Prop} {Q : Wb → WAct → Bool} (hQ : ∀ s a, Q s a = true → P s a) {s s2 : Wb} {as : List WAct} {l : List (WAct × Bool)} (h : Wb.exec c nd shared limit s as = some (s2, l))
    (hok : Wb.okRun c nd shared limit Q s as = true) : Wb.Run c nd shared limit P s l s2 := by
  suffices hh : ∀ (as : List WAct) (s s1 s2 : Wb) (l0 l : List (WAct × Bool)), Wb.Run c nd shared limit P s l0 s1 → Wb.exec c nd shared limit s1 as = some (s2, l) → Wb.okRun c nd shared limit Q s1 as = true → Wb.Run c nd shared limit P s (l0 ++ l) s2 by
    simpa using hh as s s s2 [] l (.nil s) h hok
  intro as
  induction as with
  | nil =>
    intro s s1 s2 l0 l hr h _
    simp only [Wb.exec, Option.some.injEq, Prod.mk.injEq] at h
    obtain ⟨rfl, rfl⟩ := h
    simpa using hr
  | cons a as ih =>
    intro s s1 s2 l0 l hr h hok
    simp only [Wb.exec, Option.bind_eq_bind, Option.bind_eq_some_iff, Prod.exists, Option.pure_def, Option.some.injEq, Prod.mk.injEq] at h
    obtain ⟨s3, ok, hs, s4, l', h', rfl, rfl⟩ := h
    simp only [Wb.okRun, hs, Bool.and_eq_true] at hok
    have := ih s s3 s4 (l0 ++ [(a, ok)]) l' (.snoc _ _ _ _ _ _ hr (hQ _ _ hok.1) hs) h' hok.2
    simpa using this

/-- A buffer of 8 bytes, heads of 2. -/
def wCfg : Cfg := { huge := false, bufSize := 8 }

/-- One message is broadcast to two sockets without being copied, then the program lets it go, makes a new one, changes it and sends it, together with another. -/
def wDemo : List WAct := [.make 0 [1, 2], .send 0 false false false 0, .send 1 false false false 0, .clear 0, .take 0 1, .make 0 [3], .change 0 [4, 5], .make 1 [6], .send2 1 false false true 0 1, .wrote 0, .take 1 100, .push 0, .sendList 0 true false, .wrote 1,
  .take 0 100, .wrote 0, .take 0 1, .wrote 0]

example : (Wb.exec wCfg false true 100 (Wb.init 2 2) wDemo).map (fun r => (r.1.socks.map (·.wire), r.1.vars, r.2.all (·.2))) = some ([[0, 4, 1, 2], [0, 4, 1, 2, 0, 5, 4, 5, 6]], [none, none], true) := by decide +kernel

/-- Non-vacuity of C67_shared_partial: the demonstration meets its conditions. -/
theorem C67_demo : ∃ s l, Wb.Run wCfg false true 100 (fun s a => match a with
      | .change v _ => ∀ o, s.var v = some o → s.useCount o = 1
      | .send2 _ _ _ byRef v w => byRef = true → v ≠ w
      | _ => True) (Wb.init 2 2) l s ∧ l.map (·.1) = wDemo ∧ s.socks.map (·.wire) = [[0, 4, 1, 2], [0, 4, 1, 2, 0, 5, 4, 5, 6]] := by
  refine ⟨_, _, Wb.exec_run_if (as := wDemo) (Q := fun s a => match a with
    | .change v _ => match s.var v with
      | none => true
      | some o => s.useCount o == 1
    | .send2 _ _ _ byRef v w => !byRef || v != w
    | _ => true) ?_ rfl (by decide +kernel), by decide +kernel⟩
  intro s a hq
  cases a with
  | change v b =>
    intro o ho
    simpa [ho] using hq
  | send2 i native ovf byRef v w =>
    intro hb
    simpa [hb] using hq
  | _ => exact trivial

/-- Non-vacuity of C67_unique. -/
theorem C67_demo_unique : ∃ s l, Wb.Run wCfg false false 100 (fun _ a => match a with
      | .send2 _ _ _ _ v w => v ≠ w
      | _ => True) (Wb.init 2 1) l s ∧
      l.map (·.1) = [.make 0 [1, 2], .send 0 false false true 0, .make 0 [3], .change 0 [7, 7], .take 0 1, .make 1 [6], .send2 0 false false true 0 1, .wrote 0, .take 0 100, .wrote 0] ∧
      s.socks.map (·.wire) = [[0, 4, 1, 2, 0, 5, 7, 7, 6]] := by
  refine ⟨_, _, Wb.exec_run_if (as := [.make 0 [1, 2], .send 0 false false true 0, .make 0 [3], .change 0 [7, 7], .take 0 1, .make 1 [6], .send2 0 false false true 0 1, .wrote 0, .take 0 100, .wrote 0]) (Q := fun _ a => match a with
    | .send2 _ _ _ _ v w => v != w
    | _ => true) ?_ rfl (by decide +kernel), by decide +kernel⟩
  intro s a hq
  cases a with
  | send2 i native ovf byRef v w => simpa using hq
  | _ => exact trivial

/-- Non-vacuity of C67_refused. -/
example : ((Wb.exec wCfg false true 3 (Wb.init 2 1) [.make 0 [1, 2], .send 0 false false false 0, .send 0 false false false 0, .make 1 [1, 2, 3, 4, 5, 6, 7], .send 0 false true false 1]).map (·.2.map (·.2))) = some [true, true, false, true, false] := by
  decide +kernel

/-- shared_buffer: a message changed after it was sent (a const message is not copied) is not the frame that was sent: its head and its body do not fit. Here the receiver takes the third byte of the body for the beginning of the next frame. -/
theorem C67_fails_changed : ∃ s l, Wb.Run wCfg false true 100 (fun _ _ => True) (Wb.init 1 1) l s ∧ l = [(.make 0 [1, 2], true), (.send 0 false false false 0, true), (.change 0 [7, 8, 9], true), (.take 0 100, true), (.wrote 0, true)] ∧
    s.socks.map (·.wire) = [[0, 4, 7, 8, 9]] ∧ (IMsgs.run wCfg.headLen (IMsgs.init 1 1) l).out = [[0, 4, 1, 2]] :=
  ⟨_, _, Wb.exec_run (fun _ _ => trivial) (as := [.make 0 [1, 2], .send 0 false false false 0, .change 0 [7, 8, 9], .take 0 100, .wrote 0]) rfl, by decide +kernel⟩

/-- shared_buffer: a message changed while the link is writing it. -/
theorem C67_fails_in_flight : ∃ s l, Wb.Run wCfg false true 100 (fun _ _ => True) (Wb.init 1 1) l s ∧ l.map (·.1) = [.make 0 [1, 2], .send 0 false false false 0, .take 0 100, .change 0 [7, 8]] ∧ s.bad = true :=
  ⟨_, _, Wb.exec_run (fun _ _ => trivial) (as := [.make 0 [1, 2], .send 0 false false false 0, .take 0 100, .change 0 [7, 8]]) rfl, by decide +kernel⟩

/-- One variable given by reference as both messages: the head announces the message twice, the body has it once. packer::pack_msg (packer.h:116-128) does the same with plain messages. -/
theorem C67_fails_same_variable : ∀ shared, ∃ s l, Wb.Run wCfg false shared 100 (fun _ _ => True) (Wb.init 1 1) l s ∧ l = [(.make 0 [1, 2], true), (.send2 0 false false true 0 0, true), (.take 0 100, true), (.wrote 0, true)] ∧
    s.socks.map (·.wire) = [[0, 6, 1, 2]] ∧ (IMsgs.run wCfg.headLen (IMsgs.init 1 1) l).out = [[0, 6, 1, 2, 1, 2]] := by
  intro shared
  cases shared
  · exact ⟨_, _, Wb.exec_run (fun _ _ => trivial) (as := [.make 0 [1, 2], .send2 0 false false true 0 0, .take 0 100, .wrote 0]) rfl, by decide +kernel⟩
  · exact ⟨_, _, Wb.exec_run (fun _ _ => trivial) (as := [.make 0 [1, 2], .send2 0 false false true 0 0, .take 0 100, .wrote 0]) rfl, by decide +kernel⟩

/-- Socket `i` has nothing to send but counts at least `limit` bytes. -/
def Wb.Stuck (limit i : Nat) (s : Wb) : Prop := ∃ k : WSock, s.socks[i]? = some k ∧ k.q.items = [] ∧ limit ≤ k.q.total ∧ k.q.total < 2 ^ 64

/-- Does the action send something over socket `i` regardless of the size of its send buffer? (Or take everything at once and reset the count, that is, batch_msg_send_size() is (size_t) -1.) -/
def WAct.forces (i : Nat) : WAct → Bool
  | .take j max => i == j && max == npos
  | .send j _ ovf _ _ | .send2 j _ ovf _ _ _ | .sendList j _ ovf => ovf && i == j
  | _ => false

/-- Does the action send something over socket `i`? -/
def WAct.sends (i : Nat) : WAct → Bool
  | .send j _ _ _ _ | .send2 j _ _ _ _ _ | .sendList j _ _ => i == j
  | _ => false

theorem enqueueList_other {s s2 : Wb} {i j : Nat} {k : WSock} {hs : List Hdl} (h : s.enqueueList j k hs = some s2) (hne : i ≠ j) : s2.socks[i]? = s.socks[i]? := by
  unfold Wb.enqueueList at h
  simp only [Option.map_eq_some_iff] at h
  obtain ⟨q, _, h⟩ := h
  subst h
  simp [List.getElem?_set, Ne.symm hne]

theorem Wb.stuck_step {c : Cfg} {nd shared : Bool} {limit i : Nat} {s s2 : Wb} {a : WAct} {ok : Bool} (hst : s.Stuck limit i) (hf : a.forces i = false) (h : s.step c nd shared limit a = some (s2, ok)) : s2.Stuck limit i ∧ (a.sends i = true → ok = false) := by
  obtain ⟨k0, hk0, he, hl, hl2⟩ := hst
  have hkeep : ∀ s' : Wb, s'.socks[i]? = s.socks[i]? → s'.Stuck limit i := fun s' e => ⟨k0, by rw [e, hk0], he, hl, hl2⟩
  cases a with
  | send j native ovf byRef v =>
    simp only [Wb.step] at h
    split at h
    rotate_left
    · simp at h
    split at h
    · simp at h
    next k hk =>
    split at h
    · simp only [Option.some.injEq, Prod.mk.injEq] at h
      obtain ⟨rfl, rfl⟩ := h
      exact ⟨hkeep _ rfl, fun _ => rfl⟩
    next hn =>
    have hne : i ≠ j := by
      intro e; subst e
      rw [hk0] at hk
      simp only [Option.some.injEq] at hk; subst hk
      simp only [WAct.forces, beq_self_eq_true, Bool.and_true] at hf
      exact hn ⟨hf, by omega⟩
    refine ⟨?_, fun hs => absurd (by simpa [WAct.sends] using hs) hne⟩
    split at h
    · simp only [Option.some.injEq, Prod.mk.injEq] at h
      obtain ⟨rfl, _⟩ := h
      exact hkeep _ (by simp [Wb.enqueueOne, List.getElem?_set, Ne.symm hne])
    · split at h
      · simp at h
      · simp only [Option.some.injEq, Prod.mk.injEq] at h
        obtain ⟨rfl, _⟩ := h
        exact hkeep _ rfl
      · simp only [Option.map_eq_some_iff, Prod.mk.injEq] at h
        obtain ⟨s3, h3, rfl, _⟩ := h
        exact hkeep _ ((enqueueList_other h3 hne).trans rfl)
  | send2 j native ovf byRef v w =>
    simp only [Wb.step] at h
    split at h
    rotate_left
    · simp at h
    split at h
    · simp at h
    next k hk =>
    split at h
    · simp only [Option.some.injEq, Prod.mk.injEq] at h
      obtain ⟨rfl, rfl⟩ := h
      exact ⟨hkeep _ rfl, fun _ => rfl⟩
    next hn =>
    have hne : i ≠ j := by
      intro e; subst e
      rw [hk0] at hk
      simp only [Option.some.injEq] at hk; subst hk
      simp only [WAct.forces, beq_self_eq_true, Bool.and_true] at hf
      exact hn ⟨hf, by omega⟩
    refine ⟨?_, fun hs => absurd (by simpa [WAct.sends] using hs) hne⟩
    split at h
    · simp only [Option.map_eq_some_iff, Prod.mk.injEq] at h
      obtain ⟨s3, h3, rfl, _⟩ := h
      exact hkeep _ ((enqueueList_other h3 hne).trans rfl)
    · split at h
      · simp at h
      · simp only [Option.some.injEq, Prod.mk.injEq] at h
        obtain ⟨rfl, _⟩ := h
        exact hkeep _ rfl
      · simp only [Option.map_eq_some_iff, Prod.mk.injEq] at h
        obtain ⟨s3, h3, rfl, _⟩ := h
        exact hkeep _ ((enqueueList_other h3 hne).trans rfl)
  | sendList j native ovf =>
    simp only [Wb.step] at h
    split at h
    · simp at h
    next k hk =>
    split at h
    · simp only [Option.some.injEq, Prod.mk.injEq] at h
      obtain ⟨rfl, rfl⟩ := h
      exact ⟨hkeep _ rfl, fun _ => rfl⟩
    next hn =>
    have hne : i ≠ j := by
      intro e; subst e
      rw [hk0] at hk
      simp only [Option.some.injEq] at hk; subst hk
      simp only [WAct.forces, beq_self_eq_true, Bool.and_true] at hf
      exact hn ⟨hf, by omega⟩
    refine ⟨?_, fun hs => absurd (by simpa [WAct.sends] using hs) hne⟩
    split at h
    · simp only [Option.map_eq_some_iff, Prod.mk.injEq] at h
      obtain ⟨s3, h3, rfl, _⟩ := h
      exact hkeep _ ((enqueueList_other h3 hne).trans rfl)
    · split at h
      · simp at h
      · simp only [Option.some.injEq, Prod.mk.injEq] at h
        obtain ⟨rfl, _⟩ := h
        exact hkeep _ rfl
      · simp only [Option.map_eq_some_iff, Prod.mk.injEq] at h
        obtain ⟨s3, h3, rfl, _⟩ := h
        exact hkeep _ ((enqueueList_other h3 hne).trans rfl)
  | take j max =>
    refine ⟨?_, fun hs => by simp [WAct.sends] at hs⟩
    simp only [Wb.step] at h
    split at h
    · simp at h
    next k hk =>
    split at h
    · simp only [Option.some.injEq, Prod.mk.injEq] at h
      obtain ⟨rfl, _⟩ := h
      by_cases hij : i = j
      · subst hij
        rw [hk0] at hk
        simp only [Option.some.injEq] at hk; subst hk
        have hlt : i < s.socks.length := (List.getElem?_eq_some_iff.mp hk0).1
        have hm : max ≠ npos := by
          intro e
          simp [WAct.forces, e] at hf
        have e : k0.q.moveOutBytes (hsize s.objs) [] max = (k0.q, []) := by
          obtain ⟨⟨items, total⟩, flight, wire⟩ := k0
          simp only at he hl2
          subst he
          simp only [Q.moveOutBytes, if_neg hm, Q.scanBytes, Q.splice, List.length_nil, if_true, List.append_nil, w64sub]
          have e : (total + (2 ^ 64 - 0 % 2 ^ 64)) % 2 ^ 64 = total := by omega
          rw [e]
        exact ⟨{ k0 with flight := [] }, by simp [List.getElem?_set, hlt, e], he, hl, hl2⟩
      · exact hkeep _ (by simp [List.getElem?_set, Ne.symm hij])
    · simp at h
  | wrote j =>
    refine ⟨?_, fun hs => by simp [WAct.sends] at hs⟩
    simp only [Wb.step] at h
    split at h
    · simp at h
    next k hk =>
    simp only [Option.some.injEq, Prod.mk.injEq] at h
    obtain ⟨rfl, _⟩ := h
    by_cases hij : i = j
    · subst hij
      rw [hk0] at hk
      simp only [Option.some.injEq] at hk; subst hk
      have hlt : i < s.socks.length := (List.getElem?_eq_some_iff.mp hk0).1
      exact ⟨_, List.getElem?_set_self hlt, he, hl, hl2⟩
    · exact hkeep _ (by simp [List.getElem?_set, Ne.symm hij])
  | _ =>
    refine ⟨?_, fun hs => by simp [WAct.sends] at hs⟩
    simp only [Wb.step] at h
    split at h
    all_goals first | simp at h; done | skip
    all_goals
      simp only [Option.some.injEq, Prod.mk.injEq] at h
      obtain ⟨rfl, _⟩ := h
      exact hkeep _ rfl

/-- shared_buffer: when a message grows while it waits in the send buffer, the byte count of the send buffer goes below zero, that is, wraps around: with nothing left to send, everything is refused for ever (unless overflow is allowed), whatever happens. -/
theorem C67_fails_accounting : ∃ s l, Wb.Run wCfg false true 100 (fun _ _ => True) (Wb.init 1 1) l s ∧ l.map (·.1) = [.make 0 [1, 2], .send 0 false false false 0, .change 0 [7, 8, 9], .take 0 100, .wrote 0] ∧
    ∀ s2 l2, Wb.Run wCfg false true 100 (fun _ a => a.forces 0 = false) s l2 s2 → ∀ a ok, (a, ok) ∈ l2 → a.sends 0 = true → ok = false := by
  refine ⟨_, _, Wb.exec_run (fun _ _ => trivial) (as := [.make 0 [1, 2], .send 0 false false false 0, .change 0 [7, 8, 9], .take 0 100, .wrote 0]) rfl, by decide +kernel, ?_⟩
  intro s2 l2 h
  suffices hh : s2.Stuck 100 0 ∧ ∀ a ok, (a, ok) ∈ l2 → a.sends 0 = true → ok = false from hh.2
  induction h with
  | nil =>
    refine ⟨⟨_, rfl, by decide +kernel, by decide +kernel, by decide +kernel⟩, by simp⟩
  | snoc s1 s2 as a ok hr hp hs ih =>
    obtain ⟨h1, h2⟩ := Wb.stuck_step ih.1 hp hs
    refine ⟨h1, ?_⟩
    intro b okb hb
    simp only [List.mem_append, List.mem_singleton, Prod.mk.injEq] at hb
    cases hb with
    | inl hb => exact ih.2 b okb hb
    | inr hb => obtain ⟨rfl, rfl⟩ := hb; exact h2

theorem wrapMsgs_spec (ms : List Bytes) : ∀ objs, (wrapMsgs objs ms).1 = objs ++ ms ∧ (wrapMsgs objs ms).2 = (List.range' objs.length ms.length).map some ∧ (wrapMsgs objs ms).2.map (hval (wrapMsgs objs ms).1) = ms := by
  induction ms with
  | nil => intro objs; simp [wrapMsgs]
  | cons m ms ih =>
    intro objs
    obtain ⟨h1, h2, h3⟩ := ih (objs ++ [m])
    refine ⟨by simp [wrapMsgs, h1], ?_, ?_⟩
    · simp [wrapMsgs, h2, List.range'_succ]
    · simp only [wrapMsgs, List.map_cons, h3, List.cons.injEq, and_true]
      simp [h1, hval]

/-- What a connection with an unpacker2 looks like without it. -/
def Conn.inner {σ : Type} (c : Conn (σ × List Bytes)) : Conn σ := { u := c.u.1, ph := c.ph, log := c.log }

/-- The messages in a log. -/
def rxMsgs (l : List RxEvent) : List Bytes := l.filterMap (fun e => match e with | .msg m => some m | _ => none)

/-- The objects are the messages received so far. -/
def Conn.Kept {σ : Type} (objs : List Bytes) (c : Conn (σ × List Bytes)) : Prop := c.u.2 = objs ++ rxMsgs c.log

theorem startRead2 {σ : Type} (o : UnpackerOps σ) (u : σ × List Bytes) (log : List RxEvent) :
    (startRead (unpacker2Ops o) u log).map Conn.inner = startRead o u.1 log ∧ ∀ c, startRead (unpacker2Ops o) u log = some c → c.log = log ∧ c.u.2 = u.2 := by
  obtain ⟨u, objs⟩ := u
  simp only [startRead, unpacker2Ops, Option.bind_eq_bind, Option.pure_def]
  cases h1 : o.prepare u with
  | none => simp [h1]
  | some r =>
    obtain ⟨u1, cap⟩ := r
    simp only [h1, Option.map_some, Option.bind_some]
    split
    · simp [Conn.inner]
    · cases h2 : o.cond u1 0 with
      | none => simp [h2]
      | some r =>
        obtain ⟨u2, want⟩ := r
        simp only [h2, Option.map_some, Option.bind_some]
        split
        · simp [Conn.inner]
        · simp [Conn.inner]

theorem rxMsgs_append (a b : List RxEvent) : rxMsgs (a ++ b) = rxMsgs a ++ rxMsgs b := by simp [rxMsgs]

theorem rxMsgs_map (l : List Bytes) : rxMsgs (l.map .msg) = l := by
  induction l with
  | nil => rfl
  | cons a l ih => simpa [rxMsgs] using ih

theorem recvHandler2 {σ : Type} (o : UnpackerOps σ) (objs : List Bytes) (c : Conn (σ × List Bytes)) (got : Nat) (hk : c.Kept objs) :
    (recvHandler (unpacker2Ops o) c got).map Conn.inner = recvHandler o c.inner got ∧ ∀ c', recvHandler (unpacker2Ops o) c got = some c' → c'.Kept objs := by
  obtain ⟨⟨u, os⟩, ph, log⟩ := c
  simp only [Conn.Kept] at hk
  simp only [recvHandler, Conn.inner, Option.bind_eq_bind]
  cases h1 : o.parse u got with
  | none => simp [h1, unpacker2Ops]
  | some r =>
    obtain ⟨u1, ms, ok⟩ := r
    obtain ⟨w1, w2, w3⟩ := wrapMsgs_spec ms os
    have e : (unpacker2Ops o).parse (u, os) got = some ((u1, os ++ ms), ms, ok) := by
      simp only [unpacker2Ops, h1, Option.map_some, w3]; rw [w1]
    simp only [e, Option.bind_some]
    cases ok with
    | true =>
      obtain ⟨s1, s2⟩ := startRead2 o (u1, os ++ ms) (log ++ ms.map .msg)
      refine ⟨s1, ?_⟩
      intro c' hc
      obtain ⟨t1, t2⟩ := s2 c' hc
      simp only [Conn.Kept, t1, t2, rxMsgs_append, rxMsgs_map, hk, List.append_assoc]
    | false =>
      have er : (unpacker2Ops o).reset (u1, os ++ ms) = (o.reset u1, os ++ ms) := rfl
      simp only [Bool.false_eq_true, if_false, er]
      obtain ⟨s1, s2⟩ := startRead2 o (o.reset u1, os ++ ms) (log ++ ms.map .msg ++ [.unpackError])
      refine ⟨s1, ?_⟩
      intro c' hc
      obtain ⟨t1, t2⟩ := s2 c' hc
      simp only [Conn.Kept, t1, t2, rxMsgs_append, rxMsgs_map, hk, List.append_assoc]
      simp [rxMsgs]

theorem readSome2 {σ : Type} (o : UnpackerOps σ) (cw : Bool) (objs : List Bytes) (c : Conn (σ × List Bytes)) (cap got : Nat) (d : Bytes) (hk : c.Kept objs) :
    (readSome (unpacker2Ops o) cw c cap got d).map Conn.inner = readSome o cw c.inner cap got d ∧ ∀ c', readSome (unpacker2Ops o) cw c cap got d = some c' → c'.Kept objs := by
  obtain ⟨⟨u, os⟩, ph, log⟩ := c
  have ew : (unpacker2Ops o).write (u, os) got d = (o.write u got d).map (·, os) := rfl
  simp only [readSome, Conn.inner, Option.bind_eq_bind, ew]
  cases h1 : o.write u got d with
  | none => simp
  | some u1 =>
    have ec : ∀ g, (unpacker2Ops o).cond (u1, os) g = (o.cond u1 g).map (fun r => ((r.1, os), r.2)) := fun _ => rfl
    simp only [Option.map_some, Option.bind_some, ec]
    split
    · split
      · cases h2 : o.cond u1 (got + d.length) with
        | none => simp
        | some r =>
          simp only [Option.map_some, Option.bind_some]
          exact recvHandler2 o objs _ _ hk
      · exact recvHandler2 o objs _ _ hk
    · cases h2 : o.cond u1 (got + d.length) with
      | none => simp
      | some r =>
        simp only [Option.map_some, Option.bind_some]
        split
        · exact recvHandler2 o objs _ _ hk
        · simp only [Option.pure_def, Option.map_some, Conn.inner, Option.some.injEq, true_and]
          intro c' hc
          rw [← hc]
          exact hk

theorem feedN2 {σ : Type} (o : UnpackerOps σ) (cw : Bool) (objs : List Bytes) : ∀ (n : Nat) (c : Conn (σ × List Bytes)) (d : Bytes), c.Kept objs →
    (feedN (unpacker2Ops o) cw n c d).map Conn.inner = feedN o cw n c.inner d ∧ ∀ c', feedN (unpacker2Ops o) cw n c d = some c' → c'.Kept objs := by
  intro n
  induction n with
  | zero =>
    intro c d hk
    refine ⟨rfl, ?_⟩
    intro c' h
    simp only [feedN, Option.some.injEq] at h
    rw [← h]; exact hk
  | succ n ih =>
    intro c d hk
    cases d with
    | nil =>
      refine ⟨rfl, ?_⟩
      intro c' h
      simp only [feedN, Option.some.injEq] at h
      rw [← h]; exact hk
    | cons b d =>
      have hph : c.inner.ph = c.ph := rfl
      cases hp : c.ph with
      | stalled =>
        simp only [feedN, hph, hp, Option.map_some, true_and, Option.some.injEq]
        intro c' h
        rw [← h]; exact hk
      | reading cap got want =>
        simp only [feedN, hph, hp, Option.bind_eq_bind]
        obtain ⟨r1, r2⟩ := readSome2 o cw objs c cap got ((b :: d).take (min (min want (cap - got)) (b :: d).length)) hk
        rw [← r1]
        cases h1 : readSome (unpacker2Ops o) cw c cap got ((b :: d).take (min (min want (cap - got)) (b :: d).length)) with
        | none => simp
        | some c1 =>
          simp only [Option.map_some, Option.bind_some]
          exact ih _ _ (r2 _ h1)

/-- unpacker2: whatever arrives and in whatever pieces, reception delivers exactly the messages that the wrapped unpacker delivers, with the same errors; and every message is an object of its own, that nothing but this message points to: the objects made are the
messages delivered, in order (`objs`: the objects that existed before). -/
theorem C67_received {σ : Type} (o : UnpackerOps σ) (cw : Bool) (u0 : σ) (objs : List Bytes) (chunks : List Bytes) :
    (receive (unpacker2Ops o) cw (u0, objs) chunks).map Conn.inner = receive o cw u0 chunks ∧
    ∀ c, receive (unpacker2Ops o) cw (u0, objs) chunks = some c → c.u.2 = objs ++ rxMsgs c.log := by
  have hall : ∀ (chunks : List Bytes) (c : Conn (σ × List Bytes)), c.Kept objs →
      (feedAll (unpacker2Ops o) cw c chunks).map Conn.inner = feedAll o cw c.inner chunks ∧ ∀ c', feedAll (unpacker2Ops o) cw c chunks = some c' → c'.Kept objs := by
    intro chunks
    induction chunks with
    | nil =>
      intro c hk
      refine ⟨rfl, ?_⟩
      intro c' h
      simp only [feedAll, Option.some.injEq] at h
      rw [← h]; exact hk
    | cons d ds ih =>
      intro c hk
      simp only [feedAll, Option.bind_eq_bind, feed]
      obtain ⟨r1, r2⟩ := feedN2 o cw objs d.length c d hk
      rw [← r1]
      cases h1 : feedN (unpacker2Ops o) cw d.length c d with
      | none => simp
      | some c1 =>
        simp only [Option.map_some, Option.bind_some]
        exact ih _ (r2 _ h1)
  obtain ⟨s1, s2⟩ := startRead2 o (u0, objs) []
  simp only [receive, Option.bind_eq_bind]
  rw [← s1]
  cases h1 : startRead (unpacker2Ops o) (u0, objs) [] with
  | none => simp
  | some c1 =>
    simp only [Option.map_some, Option.bind_some]
    obtain ⟨t1, t2⟩ := s2 c1 h1
    exact hall chunks c1 (by simp [Conn.Kept, t1, t2, rxMsgs])

/-- The numbers of the objects made by one call of parse_msg are new and different. -/
theorem C67_received_fresh (objs ms : List Bytes) (h : Hdl) : (wrapMsgs objs ms).2.count h ≤ 1 ∧ (h ∈ (wrapMsgs objs ms).2 → ∃ o, h = some o ∧ objs.length ≤ o) := by
  obtain ⟨_, w2, _⟩ := wrapMsgs_spec ms objs
  rw [w2]
  constructor
  · apply List.nodup_iff_count.mp
    have : (List.range' objs.length ms.length).Nodup := List.nodup_range'
    unfold List.Nodup at this ⊢
    rw [List.pairwise_map]
    exact this.imp (fun h e => h (by simpa using e))
  · intro hm
    simp only [List.mem_map, List.mem_range'_1] at hm
    obtain ⟨o, ho, rfl⟩ := hm
    exact ⟨o, rfl, ho.1⟩

/-- Two frames in two pieces through an unpacker2 around the length unpacker. -/
example : (receive (unpacker2Ops (unpackerOps wCfg)) false (Unp.init (List.replicate 8 0) true, []) [[0, 4, 1], [2, 0, 3, 7]]).map (fun c => (c.log, c.u.2)) = some ([.msg [1, 2], .msg [7]], [[1, 2], [7]]) := by decide +kernel

end StAsio
