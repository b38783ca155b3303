import Verif.Lemmas.Settings
/-!
C92: A new socket has default settings, and a link goes to the address it was asked for.

Proved: without ST_ASIO_REUSE_OBJECT a socket that create_object gives has all settings at their defaults, and a link made by add_socket goes exactly where the call says if the ips are valid; with or without it what the call says
is what is used, a setting that nobody has ever changed is at its default in every socket, the setting of one socket never changes by what is done to another, and a socket that reconnects uses the addresses of its last start.

False of the code: with ST_ASIO_REUSE_OBJECT a "new" socket has the settings of the one before it, all but the reconnect flag; so add_socket(port, ip) may bind to a local address, or send to a peer, that somebody else asked for; and with an ip that
is not valid add_socket succeeds and connects to another server.
-/
set_option autoImplicit false
namespace StAsio

/-- Does this action set `m` (of any socket)? -/
def SgAct.touches (m : Setting) : SgAct → Bool
  | .setNum _ m' _ => m' == m
  | .setAddr _ m' _ _ => m' == m
  | .call c _ => (c.says m).isSome
  | _ => false

/-- Does this action set `m` of socket `o`, or make a new socket out of `o`? -/
def SgAct.touchesAt (o : Nat) (m : Setting) : SgAct → Bool
  | .setNum o' m' _ => o' == o && m' == m
  | .setAddr o' m' _ _ => o' == o && m' == m
  | .call _ pick => pick == some o
  | .create pick => pick == some o
  | _ => false

/-- Without reuse a socket that create_object gives has the default settings. -/
theorem C92_new_partial (D : Setting → SetVal) (as : List SgAct) (s s' : Sg) (es : List SgEv) (pick : Option Nat) (o : Nat)
    (_h : Sg.Run D false Sg.init as s es) (hs : s.step D false (.create pick) = some (s', [.created o])) (m : Setting) : s'.val o m = D m := by
  simp only [Sg.step] at hs
  cases hc : s.create D false pick with
  | none => simp [hc] at hs
  | some r =>
    obtain ⟨p, t⟩ := r
    simp only [hc, Option.map_some, Option.some.injEq, Prod.mk.injEq, List.cons.injEq, SgEv.created.injEq, and_true] at hs
    obtain ⟨rfl, rfl⟩ := hs
    rcases (Sg.create_spec hc).1 with ⟨-, hr, -⟩ | ⟨-, -, -, hv⟩
    · cases hr
    · rw [hv]

/-- With or without reuse: a socket that create_object gives reconnects if the macro ST_ASIO_RECONNECT says so. -/
theorem C92_reconnect (D : Setting → SetVal) (R : Bool) (as : List SgAct) (s s' : Sg) (es : List SgEv) (pick : Option Nat) (o : Nat)
    (_h : Sg.Run D R Sg.init as s es) (hs : s.step D R (.create pick) = some (s', [.created o])) : s'.val o .reconnect = D .reconnect := by
  simp only [Sg.step] at hs
  cases hc : s.create D R pick with
  | none => simp [hc] at hs
  | some r =>
    obtain ⟨p, t⟩ := r
    simp only [hc, Option.map_some, Option.some.injEq, Prod.mk.injEq, List.cons.injEq, SgEv.created.injEq, and_true] at hs
    obtain ⟨rfl, rfl⟩ := hs
    rcases (Sg.create_spec hc).1 with ⟨-, hr, -, -, hv⟩ | ⟨-, -, -, hv⟩
    · rw [hv]; simp [sgReset]
    · rw [hv]

/-- With or without reuse: add_socket starts the socket with what the call says. -/
theorem C92_asked (D : Setting → SetVal) (R : Bool) (as : List SgAct) (s s' : Sg) (es fs : List SgEv) (c : AddCall) (pick : Option Nat)
    (_h : Sg.Run D R Sg.init as s es) (hs : s.step D R (.call c pick) = some (s', fs)) :
    ∃ (o : Nat) (w : Setting → SetVal), fs = [.created o, .start o (w .server) (w .loc) (w .peer) (w .connectMode)] ∧ w = s'.val o ∧ ∀ m v, c.says m = some (some v) → w m = v := by
  simp only [Sg.step] at hs
  cases hc : s.create D R pick with
  | none => simp [hc] at hs
  | some r =>
    obtain ⟨p, t⟩ := r
    simp only [hc, Option.map_some, Option.some.injEq, Prod.mk.injEq] at hs
    obtain ⟨rfl, rfl⟩ := hs
    exact ⟨p, (t.setFor p c).val p, rfl, rfl, fun m v hv => Sg.setFor_says t p c m v hv⟩

/-- Without reuse and with valid ips the link made by add_socket uses what a user who knows the defaults expects, for every setting. -/
theorem C92_exact_partial (D : Setting → SetVal) (as : List SgAct) (s s' : Sg) (es fs : List SgEv) (c : AddCall) (pick : Option Nat)
    (_h : Sg.Run D false Sg.init as s es) (hs : s.step D false (.call c pick) = some (s', fs)) (hv : ∀ m, c.says m ≠ some none) :
    ∃ (o : Nat) (w : Setting → SetVal), fs = [.created o, .start o (w .server) (w .loc) (w .peer) (w .connectMode)] ∧ ∀ m, c.asks D m = some (w m) := by
  simp only [Sg.step] at hs
  cases hc : s.create D false pick with
  | none => simp [hc] at hs
  | some r =>
    obtain ⟨p, t⟩ := r
    simp only [hc, Option.map_some, Option.some.injEq, Prod.mk.injEq] at hs
    obtain ⟨rfl, rfl⟩ := hs
    refine ⟨p, (t.setFor p c).val p, rfl, fun m => ?_⟩
    have hval : t.val p = D := by
      rcases (Sg.create_spec hc).1 with ⟨-, hr, -⟩ | ⟨-, -, -, hv⟩
      · cases hr
      · exact hv
    simp only [AddCall.asks]
    cases hm : c.says m with
    | none => simp only [Sg.setFor_ne t p c p m (.inr hm), hval]
    | some v =>
      cases v with
      | none => exact absurd hm (hv m)
      | some v => simp only [Sg.setFor_says t p c m v hm]

theorem Sg.step_untouched {D : Setting → SetVal} {R : Bool} {m : Setting} {s s' : Sg} {a : SgAct} {fs : List SgEv} (hi : ∀ o, s.ph o ≠ .absent → s.val o m = D m)
    (ht : a.touches m = false) (h : s.step D R a = some (s', fs)) : ∀ o, s'.ph o ≠ .absent → s'.val o m = D m := by
  have hcr : ∀ (pick : Option Nat) (o : Nat) (t : Sg), s.create D R pick = some (o, t) → ∀ x, t.ph x ≠ .absent → t.val x m = D m := by
    intro pick o t hc x hx
    obtain ⟨h1, h2, h3⟩ := Sg.create_spec hc
    by_cases hxo : x = o
    · rw [hxo]
      rcases h1 with ⟨-, -, hd, -, hv⟩ | ⟨-, -, -, hv⟩
      · rw [hv]
        simp only [sgReset]
        split
        · rfl
        · exact hi o (by rw [hd]; simp)
      · rw [hv]
    · rw [(h3 x hxo).1]
      exact hi x (by rw [← (h3 x hxo).2]; exact hx)
  cases a with
  | create pick =>
    simp only [Sg.step] at h
    cases hc : s.create D R pick with
    | none => simp [hc] at h
    | some r =>
      obtain ⟨o, t⟩ := r
      simp only [hc, Option.map_some, Option.some.injEq, Prod.mk.injEq] at h
      obtain ⟨rfl, rfl⟩ := h
      exact hcr pick o t hc
  | call c pick =>
    simp only [Sg.step] at h
    cases hc : s.create D R pick with
    | none => simp [hc] at h
    | some r =>
      obtain ⟨o, t⟩ := r
      simp only [hc, Option.map_some, Option.some.injEq, Prod.mk.injEq] at h
      obtain ⟨rfl, rfl⟩ := h
      intro x hx
      have hp := Sg.setFor_ph t o c
      have hn : c.says m = none := by simpa [SgAct.touches] using ht
      simp only [Sg.add, hp.1] at hx ⊢
      rw [Sg.setFor_ne t o c x m (.inr hn)]
      refine hcr pick o t hc x ?_
      by_cases hxo : x = o
      · rw [hxo, (Sg.create_spec hc).2.1]; simp
      · simpa [hxo] using hx
  | setNum o m' v =>
    simp only [Sg.step] at h
    have hne : m ≠ m' := by intro e; simp [SgAct.touches, e] at ht
    split at h
    · simp only [Option.some.injEq, Prod.mk.injEq] at h
      obtain ⟨rfl, rfl⟩ := h
      intro x hx
      simp only [Sg.setNum] at hx ⊢
      split
      · rw [if_pos (by assumption)] at hx; exact hi x hx
      · rw [if_neg (by assumption)] at hx
        split
        · rw [if_pos (by assumption)] at hx; simpa [hne] using hi x hx
        · rw [if_neg (by assumption)] at hx; simpa [hne] using hi x hx
    · cases h
  | setAddr o m' p ip =>
    simp only [Sg.step] at h
    have hne : m ≠ m' := by intro e; simp [SgAct.touches, e] at ht
    split at h
    · simp only [Option.some.injEq, Prod.mk.injEq] at h
      obtain ⟨rfl, rfl⟩ := h
      intro x hx
      simpa [Sg.setAddr, hne] using hi x hx
    · cases h
  | again o =>
    simp only [Sg.step] at h
    split at h
    · simp only [Option.some.injEq, Prod.mk.injEq] at h
      obtain ⟨rfl, rfl⟩ := h
      exact hi
    · cases h
  | add o =>
    simp only [Sg.step] at h
    split at h
    · rename_i hp
      simp only [Sg.add, Option.some.injEq, Prod.mk.injEq] at h
      obtain ⟨rfl, rfl⟩ := h
      intro x hx
      by_cases hxo : x = o
      · exact hi x (by rw [hxo, hp]; simp)
      · exact hi x (by simpa [hxo] using hx)
    · cases h
  | close o =>
    simp only [Sg.step] at h
    split at h
    · rename_i hp
      simp only [Option.some.injEq, Prod.mk.injEq] at h
      obtain ⟨rfl, rfl⟩ := h
      intro x hx
      by_cases hxo : x = o
      · exact hi x (by rw [hxo, hp]; simp)
      · exact hi x (by simpa [hxo] using hx)
    · cases h
  | free o =>
    simp only [Sg.step] at h
    split at h
    · simp only [Option.some.injEq, Prod.mk.injEq] at h
      obtain ⟨rfl, rfl⟩ := h
      intro x hx
      by_cases hxo : x = o
      · simp [hxo] at hx
      · exact hi x (by simpa [hxo] using hx)
    · cases h

/-- With or without reuse: a setting that nobody has changed, of any socket, is at its default in all sockets. -/
theorem C92_untouched (D : Setting → SetVal) (R : Bool) (m : Setting) (as : List SgAct) (s : Sg) (es : List SgEv)
    (h : Sg.Run D R Sg.init as s es) (ht : ∀ a ∈ as, a.touches m = false) : ∀ o, s.ph o ≠ .absent → s.val o m = D m := by
  generalize he : Sg.init = s0 at h
  induction h with
  | nil => subst he; intro o ho; exact absurd rfl ho
  | snoc s1 s2 as a es fs _ hs ih =>
    exact Sg.step_untouched (ih (fun b hb => ht b (List.mem_append_left _ hb))) (ht a (by simp)) hs

theorem Sg.step_stable {D : Setting → SetVal} {R : Bool} {o : Nat} {m : Setting} {s s' : Sg} {a : SgAct} {fs : List SgEv} (ho : o < s.n)
    (ht : a.touchesAt o m = false) (h : s.step D R a = some (s', fs)) : s'.val o m = s.val o m ∧ o < s'.n := by
  have hcr : ∀ (pick : Option Nat) (p : Nat) (t : Sg), pick ≠ some o → s.create D R pick = some (p, t) → t.val o = s.val o ∧ o < t.n ∧ o ≠ p := by
    intro pick p t hp hc
    obtain ⟨h1, h2, h3⟩ := Sg.create_spec hc
    have hne : o ≠ p := by
      rcases h1 with ⟨e, -⟩ | ⟨-, e, -⟩
      · intro e2; exact hp (by rw [e, e2])
      · omega
    refine ⟨(h3 o hne).1, ?_, hne⟩
    rcases h1 with ⟨-, -, -, e, -⟩ | ⟨-, -, e, -⟩ <;> omega
  cases a with
  | create pick =>
    simp only [Sg.step] at h
    cases hc : s.create D R pick with
    | none => simp [hc] at h
    | some r =>
      obtain ⟨p, t⟩ := r
      simp only [hc, Option.map_some, Option.some.injEq, Prod.mk.injEq] at h
      obtain ⟨rfl, rfl⟩ := h
      have := hcr pick p t (by intro e; simp [SgAct.touchesAt, e] at ht) hc
      exact ⟨by rw [this.1], this.2.1⟩
  | call c pick =>
    simp only [Sg.step] at h
    cases hc : s.create D R pick with
    | none => simp [hc] at h
    | some r =>
      obtain ⟨p, t⟩ := r
      simp only [hc, Option.map_some, Option.some.injEq, Prod.mk.injEq] at h
      obtain ⟨rfl, rfl⟩ := h
      have := hcr pick p t (by intro e; simp [SgAct.touchesAt, e] at ht) hc
      refine ⟨?_, ?_⟩
      · simp only [Sg.add]; rw [Sg.setFor_ne t p c o m (.inl this.2.2), this.1]
      · simp only [Sg.add, (Sg.setFor_ph t p c).2]; exact this.2.1
  | setNum o' m' v =>
    simp only [Sg.step] at h
    have hne : ¬ (o = o' ∧ m = m') := by intro e; simp [SgAct.touchesAt, e.1, e.2] at ht
    split at h
    · simp only [Option.some.injEq, Prod.mk.injEq] at h
      obtain ⟨rfl, rfl⟩ := h
      simp only [Sg.setNum]
      split
      · exact ⟨rfl, ho⟩
      · split
        · exact ⟨if_neg hne, ho⟩
        · exact ⟨if_neg hne, ho⟩
    · cases h
  | setAddr o' m' p ip =>
    simp only [Sg.step] at h
    have hne : ¬ (o = o' ∧ m = m') := by intro e; simp [SgAct.touchesAt, e.1, e.2] at ht
    split at h
    · simp only [Option.some.injEq, Prod.mk.injEq] at h
      obtain ⟨rfl, rfl⟩ := h
      exact ⟨if_neg hne, ho⟩
    · cases h
  | again _ | add _ | close _ | free _ =>
    simp only [Sg.step] at h
    split at h
    · simp only [Sg.add, Option.some.injEq, Prod.mk.injEq] at h
      obtain ⟨rfl, rfl⟩ := h
      exact ⟨rfl, ho⟩
    · cases h

/-- With or without reuse: what is done to other sockets (made, configured, started, closed, freed) leaves the settings of a socket alone. -/
theorem C92_isolated (D : Setting → SetVal) (R : Bool) (o : Nat) (m : Setting) (bs as : List SgAct) (s s' : Sg) (ds es : List SgEv)
    (h0 : Sg.Run D R Sg.init bs s ds) (ho : s.ph o ≠ .absent) (h : Sg.Run D R s as s' es) (ht : ∀ a ∈ as, a.touchesAt o m = false) : s'.val o m = s.val o m := by
  have hlt : o < s.n := by
    refine Nat.lt_of_not_le fun hle => ho (Sg.run_inv h0 o hle)
  have : s'.val o m = s.val o m ∧ o < s'.n := by
    induction h with
    | nil => exact ⟨rfl, hlt⟩
    | snoc s1 s2 as a es fs _ hs ih =>
      have h1 := ih (fun b hb => ht b (List.mem_append_left _ hb))
      have h2 := Sg.step_stable h1.2 (ht a (by simp)) hs
      exact ⟨h2.1.trans h1.1, h2.2⟩
  exact this.1

/-- The addresses in the last start of `o`. -/
def lastStart (o : Nat) : List SgEv → Option (SetVal × SetVal × SetVal × SetVal)
  | [] => none
  | e :: es => match lastStart o es with
    | some r => some r
    | none => match e with
      | .start x a b c d => if x = o then some (a, b, c, d) else none
      | _ => none

/-- A socket whose link ended and that starts again uses the addresses of its last start, if nobody set them in between. -/
theorem C92_again (D : Setting → SetVal) (R : Bool) (o : Nat) (bs as : List SgAct) (s s1 s2 s3 : Sg) (a : SgAct) (ds es fs gs : List SgEv) (v1 v2 v3 v4 w1 w2 w3 w4 : SetVal)
    (h0 : Sg.Run D R Sg.init bs s ds) (ha : s.step D R a = some (s1, fs)) (hf : lastStart o fs = some (v1, v2, v3, v4)) (h : Sg.Run D R s1 as s2 es)
    (ht : ∀ b ∈ as, ∀ m, b.touchesAt o m = false) (hs : s2.step D R (.again o) = some (s3, gs)) (hg : gs = [.start o w1 w2 w3 w4]) :
    w1 = v1 ∧ w2 = v2 ∧ w3 = v3 ∧ w4 = v4 := by
  have h1 : Sg.Run D R Sg.init (bs ++ [a]) s1 (ds ++ fs) := .snoc _ _ _ _ _ _ _ h0 ha
  have key : s1.ph o ≠ .absent ∧ v1 = s1.val o .server ∧ v2 = s1.val o .loc ∧ v3 = s1.val o .peer ∧ v4 = s1.val o .connectMode := by
    cases a with
    | create pick =>
      simp only [Sg.step] at ha
      cases hc : s.create D R pick with
      | none => simp [hc] at ha
      | some r =>
        simp only [hc, Option.map_some, Option.some.injEq, Prod.mk.injEq] at ha
        obtain ⟨rfl, rfl⟩ := ha
        simp [lastStart] at hf
    | call c pick =>
      simp only [Sg.step] at ha
      cases hc : s.create D R pick with
      | none => simp [hc] at ha
      | some r =>
        simp only [hc, Option.map_some, Option.some.injEq, Prod.mk.injEq] at ha
        obtain ⟨rfl, rfl⟩ := ha
        simp only [Sg.add, lastStart] at hf
        split at hf
        · rename_i q hq
          split at hq
          · rename_i e
            simp only [Option.some.injEq, Prod.mk.injEq] at hq hf
            subst hq; subst e
            simp only [Prod.mk.injEq] at hf
            obtain ⟨rfl, rfl, rfl, rfl⟩ := hf
            refine ⟨?_, rfl, rfl, rfl, rfl⟩
            simp [Sg.add]
          · cases hq
        · cases hf
    | add x =>
      simp only [Sg.step] at ha
      split at ha
      · simp only [Sg.add, Option.some.injEq, Prod.mk.injEq] at ha
        obtain ⟨rfl, rfl⟩ := ha
        simp only [lastStart] at hf
        split at hf
        · rename_i e
          subst e
          simp only [Option.some.injEq, Prod.mk.injEq] at hf
          obtain ⟨rfl, rfl, rfl, rfl⟩ := hf
          exact ⟨by simp, rfl, rfl, rfl, rfl⟩
        · cases hf
      · cases ha
    | again x =>
      simp only [Sg.step] at ha
      split at ha
      · rename_i hp
        simp only [Option.some.injEq, Prod.mk.injEq] at ha
        obtain ⟨rfl, rfl⟩ := ha
        simp only [lastStart] at hf
        split at hf
        · rename_i e
          subst e
          simp only [Option.some.injEq, Prod.mk.injEq] at hf
          obtain ⟨rfl, rfl, rfl, rfl⟩ := hf
          exact ⟨by rw [hp]; simp, rfl, rfl, rfl, rfl⟩
        · cases hf
      · cases ha
    | setNum _ _ _ | setAddr _ _ _ _ | close _ | free _ =>
      simp only [Sg.step] at ha
      split at ha
      · simp only [Option.some.injEq, Prod.mk.injEq] at ha
        obtain ⟨rfl, rfl⟩ := ha
        simp [lastStart] at hf
      · cases ha
  obtain ⟨hp, rfl, rfl, rfl, rfl⟩ := key
  have st : ∀ m, s2.val o m = s1.val o m := fun m => C92_isolated D R o m _ as s1 s2 _ es h1 hp h (fun b hb => ht b hb m)
  simp only [Sg.step] at hs
  split at hs
  · simp only [Option.some.injEq, Prod.mk.injEq] at hs
    obtain ⟨rfl, rfl⟩ := hs
    simp only [List.cons.injEq, SgEv.start.injEq, true_and, and_true] at hg
    obtain ⟨rfl, rfl, rfl, rfl⟩ := hg
    exact ⟨st _, st _, st _, st _⟩
  · cases hs

/-! Concrete cases -/

/-- Defaults: the server is 1.1.1.1 (say) with port 5050, sockets are not bound, no peer. -/
def sgDflt : Setting → SetVal
  | .server => .ep (some 1) 5050
  | .loc | .peer => .ep none 0
  | .sendBuf | .recvBuf => .num 1048576
  | .resumeMs | .handleMs => .num 50
  | .reconnect => .num 1
  | _ => .num 0

/-- Two links; the first socket is configured, ends its link, reconnects and is gone; the second one made without reuse has the defaults. -/
theorem C92_demo : (Sg.exec sgDflt false Sg.init [.call (.tcp4 80 7000 (.good 9) (.good 2)) none, .setNum 0 .sendBuf 10, .again 0, .close 0, .call .tcp0 none]).map (fun r => (r.2, r.1.val 1 .sendBuf)) =
    some ([.created 0, .start 0 (.ep (some 9) 80) (.ep (some 2) 7000) (.ep none 0) (.num 0), .start 0 (.ep (some 9) 80) (.ep (some 2) 7000) (.ep none 0) (.num 0),
      .created 1, .start 1 (.ep (some 1) 5050) (.ep none 0) (.ep none 0) (.num 0)], .num 1048576) := by rfl

/-- The hypotheses of `C92_again` and `C92_untouched` are met by this history. -/
theorem C92_demo_again : ∀ b ∈ [SgAct.setNum 1 .sendBuf 10, .create none, .setAddr 1 .server 6 .empty], (∀ m, b.touchesAt 0 m = false) ∧ b.touches .peer = false := by
  intro b hb
  simp only [List.mem_cons, List.not_mem_nil, or_false] at hb
  rcases hb with rfl | rfl | rfl <;> exact ⟨fun m => by simp [SgAct.touchesAt], rfl⟩

/-- A value that differs from the default and that the setter accepts. -/
def sgOther : Setting → SgAct
  | .server => .setAddr 0 .server 80 (.good 9)
  | .loc => .setAddr 0 .loc 7000 (.good 2)
  | .peer => .setAddr 0 .peer 6000 (.good 3)
  | m => .setNum 0 m 7

/-- False with reuse: for every setting but the reconnect flag there is a history after which create_object gives a socket that does not have the default. -/
theorem C92_fails_default (m : Setting) (hm : m ≠ .reconnect) :
    ∃ (as : List SgAct) (s s' : Sg) (es : List SgEv), Sg.Run sgDflt true Sg.init as s es ∧ s.step sgDflt true (.create (some 0)) = some (s', [.created 0]) ∧ s'.val 0 m ≠ sgDflt m := by
  refine ⟨[.create none, .add 0, sgOther m, .close 0], ?_⟩
  cases m <;> first
    | exact absurd rfl hm
    | (refine ⟨_, _, _, Sg.exec_run _ _ _ _ [] [] _ (.nil _) rfl, rfl, ?_⟩
       simp [Sg.setNum, Sg.setAddr, sgReset, sgDflt, sgAddr, Sg.add])

/-- False with reuse: somebody asked for a link from 2:7000 to 9:80, it ended; then somebody asks for a link to 8:81, and gets one from 2:7000. -/
theorem C92_fails_local :
    (Sg.exec sgDflt true Sg.init [.call (.tcp4 80 7000 (.good 9) (.good 2)) none, .close 0, .call (.tcp2 81 (.good 8)) (some 0)]).map Prod.snd =
      some [.created 0, .start 0 (.ep (some 9) 80) (.ep (some 2) 7000) (.ep none 0) (.num 0), .created 0, .start 0 (.ep (some 8) 81) (.ep (some 2) 7000) (.ep none 0) (.num 0)]
    ∧ (AddCall.tcp2 81 (.good 8)).asks sgDflt .loc = some (.ep none 0) := ⟨rfl, rfl⟩

/-- False with reuse: add_socket() does not go to the default server. -/
theorem C92_fails_server :
    (Sg.exec sgDflt true Sg.init [.call (.tcp2 80 (.good 9)) none, .close 0, .call .tcp0 (some 0)]).map Prod.snd =
      some [.created 0, .start 0 (.ep (some 9) 80) (.ep none 0) (.ep none 0) (.num 0), .created 0, .start 0 (.ep (some 9) 80) (.ep none 0) (.ep none 0) (.num 0)]
    ∧ AddCall.tcp0.asks sgDflt .server = some (.ep (some 1) 5050) := ⟨rfl, rfl⟩

/-- False with reuse: a UDP socket without a peer has the peer, and the connect mode, of the one before it. -/
theorem C92_fails_peer :
    (Sg.exec sgDflt true Sg.init [.call (.udp4 5000 6000 .empty (.good 3)) none, .setNum 0 .connectMode 1, .close 0, .call (.udp2 5001 .empty) (some 0)]).map Prod.snd =
      some [.created 0, .start 0 (.ep (some 1) 5050) (.ep none 5000) (.ep (some 3) 6000) (.num 0), .created 0, .start 0 (.ep (some 1) 5050) (.ep none 5001) (.ep (some 3) 6000) (.num 1)]
    ∧ (AddCall.udp2 5001 .empty).asks sgDflt .peer = some (.ep none 0) := ⟨rfl, rfl⟩

/-- False, with or without reuse: add_socket with an ip that is not valid succeeds and connects to the default server, not even with the port that was asked for. -/
theorem C92_fails_bad_ip (R : Bool) :
    (Sg.exec sgDflt R Sg.init [.call (.tcp2 80 .bad) none]).map Prod.snd = some [.created 0, .start 0 (.ep (some 1) 5050) (.ep none 0) (.ep none 0) (.num 0)]
    ∧ (AddCall.tcp2 80 .bad).asks sgDflt .server = none := by cases R <;> exact ⟨rfl, rfl⟩

/-- **C92** (setters): a setter changes one setting of one socket. A number is taken as it is given, except that 0 is refused for the sizes of the buffers and that the connect mode can only be switched on; an address with a valid ip (or
none) is taken as it is given, one with an invalid ip is not taken. -/
theorem C92_set (D : Setting → SetVal) (R : Bool) (as : List SgAct) (s s' : Sg) (es fs : List SgEv) (a : SgAct) (o : Nat) (m : Setting) (_h : Sg.Run D R Sg.init as s es) (hs : s.step D R a = some (s', fs)) :
    (∀ v, a = .setNum o m v → fs = [] ∧ (∀ x k, ¬(x = o ∧ k = m) → s'.val x k = s.val x k) ∧
      (m ≠ .connectMode → (v ≠ 0 ∨ (m ≠ .sendBuf ∧ m ≠ .recvBuf)) → s'.val o m = .num v) ∧ (m = .connectMode → s'.val o m = .num 1) ∧ (m = .sendBuf ∨ m = .recvBuf → v = 0 → s'.val o m = s.val o m)) ∧
    (∀ port ip, a = .setAddr o m port ip → fs = [] ∧ (∀ x k, ¬(x = o ∧ k = m) → s'.val x k = s.val x k) ∧
      (ip = .empty → s'.val o m = .ep none port) ∧ (∀ i, ip = .good i → s'.val o m = .ep (some i) port) ∧ (ip = .bad → s'.val o m = s.val o m)) := by
  constructor
  · rintro v rfl
    simp only [Sg.step, Sg.setNum] at hs
    split at hs
    · cases hs
      refine ⟨rfl, ?_, ?_, ?_, ?_⟩
      · intro x k hn
        (repeat' split) <;> simp [hn]
      · intro h1 h2
        have : ¬((m = .sendBuf ∨ m = .recvBuf) ∧ v = 0) := by
          rintro ⟨h3, h4⟩
          rcases h2 with h2 | ⟨h2, h5⟩
          · exact h2 h4
          · rcases h3 with h3 | h3
            · exact h2 h3
            · exact h5 h3
        rw [if_neg this, if_neg h1]
        simp
      · rintro rfl
        simp
      · intro h1 h2
        rw [if_pos ⟨h1, h2⟩]
    · cases hs
  · rintro port ip rfl
    simp only [Sg.step, Sg.setAddr] at hs
    split at hs
    · cases hs
      refine ⟨rfl, fun x k hn => by simp [hn], ?_, ?_, ?_⟩
      · rintro rfl; simp [sgAddr]
      · rintro i rfl; simp [sgAddr]
      · rintro rfl; simp [sgAddr]
    · cases hs

/-- Setters of both kinds are called in this history: one number is taken, one is refused, one address is taken, one is not. -/
theorem C92_set_demo : (Sg.exec sgDflt false Sg.init [.create none, .setNum 0 .recvBuf 77, .setNum 0 .sendBuf 0, .setAddr 0 .server 80 (.good 9), .setAddr 0 .loc 7000 .bad, .add 0]).map
    (fun r => (r.2, r.1.val 0 .recvBuf, r.1.val 0 .sendBuf)) = some ([.created 0, .start 0 (.ep (some 9) 80) (.ep none 0) (.ep none 0) (.num 0)], .num 77, .num 1048576) := by rfl

end StAsio
