import Verif.Lemmas.RecvDispatch
set_option autoImplicit false
namespace StAsio

/-! ### the bound of the receive buffer -/

/-- How often the link came up. -/
def rLinks : List RAct → Nat
  | [] => 0
  | .linkUp :: as => rLinks as + 1
  | _ :: as => rLinks as

theorem rLinks_append (a b : List RAct) : rLinks (a ++ b) = rLinks a + rLinks b := by
  induction a with
  | nil => simp [rLinks]
  | cons e a ih => cases e <;> simp [rLinks, ih]; omega

/-- Every read yields at most `r` bytes of messages. -/
def ReadsWithin (r : Nat) (as : List RAct) : Prop := ∀ ms, RAct.read ms ∈ as → sumSize rsz ms ≤ r

structure Rx.Bnd (limit r n : Nat) (s : Rx) : Prop where
  all : sumSize rsz s.buf.items ≤ limit - 1 + n * r
  on : s.rd ≠ .off → 0 < n
  reading : s.rd = .reading ∨ s.rd = .resume → sumSize rsz s.buf.items ≤ limit - 1 + (n - 1) * r

theorem Rx.step_bnd {limit r n : Nat} {s s' : Rx} {a : RAct} {es : List REv} (h : s.Inv) (hb : Rx.Bnd limit r n s)
    (hr : ∀ ms, a = .read ms → sumSize rsz ms ≤ r) (hn : limit + n * r < 2 ^ 64)
    (hs : s.step limit a = some (s', es)) : Rx.Bnd limit r (n + rLinks [a]) s' := by
  have he := h.exact
  unfold Q.Exact at he
  have hall := hb.all
  have htot : s.buf.total = sumSize rsz s.buf.items := by rw [he]; exact Nat.mod_eq_of_lt (by omega)
  have hav : s.available limit = true → ∀ k, sumSize rsz s.buf.items ≤ limit - 1 + k := by
    intro ha k
    simp only [Rx.available, decide_eq_true_eq] at ha
    omega
  cases a with
  | read ms =>
    simp only [rLinks, Nat.add_zero]
    simp only [Rx.step] at hs
    split at hs
    · cases hs
    · rename_i hrd
      have hrd : s.rd = .reading := by simpa using hrd
      have hpos := hb.on (by simp [hrd])
      split at hs
      · cases hs; exact ⟨hb.all, fun _ => hpos, by simp⟩
      · have hd : Q.declared rsz ms (getSizeInByte rsz ms) = some (sumSize rsz ms % 2 ^ 64) := by
          unfold Q.declared
          rw [getSizeInByte_eq]
          split
          · rfl
          · simp
        simp [Q.moveIn, hd] at hs
        obtain ⟨rfl, rfl⟩ := hs
        refine ⟨?_, fun _ => hpos, by simp⟩
        have h1 := hb.reading (Or.inl hrd)
        have h2 := hr ms rfl
        have h3 : n * r = (n - 1) * r + r := by
          cases n with
          | zero => omega
          | succ n => simp [Nat.succ_mul]
        simp only [sumSize_append]
        omega
  | readError =>
    simp only [rLinks, Nat.add_zero]
    simp only [Rx.step] at hs
    split at hs
    · cases hs; exact ⟨hb.all, by simp, by simp⟩
    · cases hs
  | loadDisp =>
    simp only [rLinks, Nat.add_zero]
    simp only [Rx.step] at hs
    split at hs
    · cases hs
    · rename_i hrd
      have hrd : s.rd = .moved := by simpa using hrd
      cases hs; exact ⟨hb.all, fun _ => hb.on (by simp [hrd]), by simp⟩
  | handled =>
    simp only [rLinks, Nat.add_zero]
    simp only [Rx.step] at hs
    split at hs
    · cases hs
    · rename_i hrd
      have hrd : s.rd = .check := by simpa using hrd
      cases hs
      refine ⟨hb.all, fun _ => hb.on (by simp [hrd]), ?_⟩
      intro h1
      cases hv : s.available limit
      · simp [hv] at h1
      · exact hav hv _
  | checkTimer =>
    simp only [rLinks, Nat.add_zero]
    simp only [Rx.step] at hs
    split at hs
    · cases hs
    · rename_i hrd
      have hrd : s.rd = .timer := by simpa using hrd
      cases hs
      refine ⟨hb.all, fun _ => hb.on (by simp [hrd]), ?_⟩
      intro h1
      cases hv : s.available limit
      · simp [hv] at h1
      · exact hav hv _
  | resume =>
    simp only [rLinks, Nat.add_zero]
    simp only [Rx.step] at hs
    split at hs
    · cases hs
    · rename_i hrd
      have hrd : s.rd = .resume := by simpa using hrd
      cases hs; exact ⟨hb.all, fun _ => hb.on (by simp [hrd]), fun _ => hb.reading (Or.inr hrd)⟩
  | run =>
    simp only [rLinks, Nat.add_zero]
    simp only [Rx.step] at hs
    split at hs
    · cases hs
    · split at hs
      · cases hs; exact ⟨hb.all, hb.on, hb.reading⟩
      · cases hi : s.buf.items with
        | nil =>
          simp [Q.tryDequeue, hi] at hs
          obtain ⟨rfl, rfl⟩ := hs
          exact ⟨hb.all, hb.on, hb.reading⟩
        | cons m l =>
          simp [Q.tryDequeue, hi] at hs
          obtain ⟨rfl, rfl⟩ := hs
          have h1 := hb.all
          have h2 := hb.reading
          rw [hi, sumSize_cons] at h1 h2
          exact ⟨by simp only; omega, hb.on, fun hx => by have := h2 hx; simp only; omega⟩
  | begin =>
    simp only [rLinks, Nat.add_zero]
    simp only [Rx.step] at hs
    split at hs
    · cases hs
    · split at hs <;> (cases hs; exact ⟨hb.all, hb.on, hb.reading⟩)
  | ret ok =>
    simp only [rLinks, Nat.add_zero]
    simp only [Rx.step] at hs
    split at hs
    · cases hs
    · split at hs
      · cases hs; exact ⟨hb.all, hb.on, hb.reading⟩
      · split at hs <;> (cases hs; exact ⟨hb.all, hb.on, hb.reading⟩)
  | dis =>
    simp only [rLinks, Nat.add_zero]
    simp only [Rx.step] at hs
    split at hs <;> first | (cases hs; exact ⟨hb.all, hb.on, hb.reading⟩) | cases hs
  | dtimer =>
    simp only [rLinks, Nat.add_zero]
    simp only [Rx.step] at hs
    split at hs
    · cases hs; exact ⟨hb.all, hb.on, hb.reading⟩
    · cases hs
  | loseDispatch =>
    simp only [rLinks, Nat.add_zero]
    simp only [Rx.step] at hs
    split at hs
    · cases hs; exact ⟨hb.all, hb.on, hb.reading⟩
    · cases hs
  | loseCheck =>
    simp only [rLinks, Nat.add_zero]
    simp only [Rx.step] at hs
    split at hs
    · cases hs; exact ⟨hb.all, by simp, by simp⟩
    · cases hs
  | pop =>
    simp only [rLinks, Nat.add_zero]
    simp only [Rx.step] at hs
    cases hi : s.buf.items with
    | nil =>
      simp [Q.tryDequeue, hi] at hs
      obtain ⟨rfl, rfl⟩ := hs
      exact hb
    | cons m l =>
      simp [Q.tryDequeue, hi] at hs
      obtain ⟨rfl, rfl⟩ := hs
      have h1 := hb.all
      have h2 := hb.reading
      rw [hi, sumSize_cons] at h1 h2
      exact ⟨by simp only; omega, hb.on, fun hx => by have := h2 hx; simp only; omega⟩
  | popAll =>
    simp only [rLinks, Nat.add_zero]
    simp only [Rx.step, Option.some.injEq, Prod.mk.injEq] at hs
    obtain ⟨rfl, rfl⟩ := hs
    exact ⟨by simp [Q.swap, sumSize], hb.on, by simp [Q.swap, sumSize]⟩
  | linkUp =>
    simp only [rLinks, Nat.zero_add]
    simp only [Rx.step] at hs
    split at hs
    · cases hs
      refine ⟨?_, by simp, ?_⟩
      · rw [Nat.succ_mul]; simp only; omega
      · intro _; simpa using hb.all
    · cases hs
  | reset =>
    simp only [rLinks, Nat.add_zero]
    simp only [Rx.step] at hs
    split at hs
    · cases hs; exact ⟨by simp [Q.clear, sumSize], hb.on, by simp [Q.clear, sumSize]⟩
    · cases hs

theorem Rx.run_bnd {limit r : Nat} {s : Rx} {as : List RAct} {es : List REv} (hr : Rx.Run limit Rx.init as s es)
    (hw : ReadsWithin r as) (hn : limit + rLinks as * r < 2 ^ 64) : Rx.Bnd limit r (rLinks as) s := by
  generalize hi : Rx.init = s0 at hr
  induction hr with
  | nil => subst hi; exact ⟨by simp [Rx.init, Q.init, sumSize], by simp [Rx.init], by simp [Rx.init]⟩
  | snoc s1 s2 as a es es' hr hs ih =>
    subst hi
    rw [rLinks_append] at hn ⊢
    have hn' : limit + rLinks as * r < 2 ^ 64 := by
      have : rLinks as * r ≤ (rLinks as + rLinks [a]) * r := Nat.mul_le_mul_right _ (by omega)
      omega
    have := ih (fun ms hm => hw ms (by simp [hm])) hn'
    exact Rx.step_bnd (Rx.run_inv Rx.init_inv hr).1 this (fun ms hm => hw ms (by simp [hm])) hn' hs

/-! ### progress -/

/-- What goes on without the user or the peer, on_msg_handle accepting. -/
def RAct.Internal : RAct → Prop
  | .loadDisp | .handled | .checkTimer | .resume | .run | .begin | .ret true | .dis | .dtimer => True
  | _ => False

def Rx.pcWork (s : Rx) : Nat :=
  match s.pc with
  | .idle => if s.cur.isSome then 6 else 0
  | .got => 5
  | .handling => 4
  | .clearing => 3
  | .posting => 2
  | .refused => 9

def RPc.work : RPc → Nat
  | .moved => 5
  | .check => 3
  | .timer => 2
  | .resume => 1
  | .reading => 0
  | .off => 0

def Rx.work (s : Rx) : Nat := s.posted + 2 * s.dtimer.toNat + s.pcWork + s.rd.work + 10 * s.buf.items.length

/-- Every internal action, except a poll that finds the buffer still full, decreases the work left. -/
theorem Rx.step_work {limit : Nat} {s s' : Rx} {a : RAct} {es : List REv} (h : s.Inv) (ha : a.Internal)
    (hs : s.step limit a = some (s', es)) : s'.work < s.work ∨ (a = .checkTimer ∧ s' = s) := by
  cases a with
  | loadDisp =>
    simp only [Rx.step] at hs
    split at hs
    · cases hs
    · rename_i hrd
      have hrd : s.rd = .moved := by simpa using hrd
      cases hs
      left
      simp only [Rx.work, Rx.pcWork, hrd, RPc.work]
      cases s.dispatching <;> simp <;> omega
  | handled =>
    simp only [Rx.step] at hs
    split at hs
    · cases hs
    · rename_i hrd
      have hrd : s.rd = .check := by simpa using hrd
      cases hs
      left
      simp only [Rx.work, Rx.pcWork, hrd]
      cases s.available limit <;> simp [RPc.work] <;> omega
  | checkTimer =>
    simp only [Rx.step] at hs
    split at hs
    · cases hs
    · rename_i hrd
      have hrd : s.rd = .timer := by simpa using hrd
      cases hs
      cases hv : s.available limit
      · right; refine ⟨rfl, ?_⟩; simp [← hrd]
      · left
        simp only [Rx.work, Rx.pcWork, hrd]
        simp [RPc.work]
  | resume =>
    simp only [Rx.step] at hs
    split at hs
    · cases hs
    · rename_i hrd
      have hrd : s.rd = .resume := by simpa using hrd
      cases hs
      left
      simp only [Rx.work, Rx.pcWork, hrd]
      simp [RPc.work]
  | run =>
    simp only [Rx.step] at hs
    split at hs
    · cases hs
    · rename_i hc
      have hpc : s.pc = .idle := by cases hp : s.pc <;> simp [hp] at hc ⊢
      have hp0 : s.posted ≠ 0 := fun h0 => hc (Or.inl h0)
      left
      split at hs
      · rename_i hd
        cases hs
        have := h.idle hpc
        rw [hd] at this
        simp only [Rx.work, Rx.pcWork, hpc, ← this]
        simp; omega
      · cases hi : s.buf.items with
        | nil =>
          simp [Q.tryDequeue, hi] at hs
          obtain ⟨rfl, rfl⟩ := hs
          simp only [Rx.work, Rx.pcWork, hpc, hi]
          omega
        | cons m l =>
          simp [Q.tryDequeue, hi] at hs
          obtain ⟨rfl, rfl⟩ := hs
          simp only [Rx.work, Rx.pcWork, hpc, hi, List.length_cons]
          split <;> omega
  | begin =>
    simp only [Rx.step] at hs
    split at hs
    · cases hs
    · rename_i hpc
      have hpc : s.pc = .got := by simpa using hpc
      have hg := h.got hpc
      left
      cases hcu : s.cur with
      | none => simp [hcu] at hg
      | some m =>
        rw [hcu] at hs
        cases hs
        simp only [Rx.work, Rx.pcWork, hpc]; omega
  | ret ok =>
    cases ok with
    | false => exact absurd ha (by simp [RAct.Internal])
    | true =>
      simp only [Rx.step] at hs
      split at hs
      · cases hs
      · rename_i hpc
        have hpc : s.pc = .handling := by simpa using hpc
        have hg := h.handling hpc
        left
        cases hcu : s.cur with
        | none => simp [hcu] at hg
        | some m =>
          rw [hcu] at hs
          cases hs
          simp only [Rx.work, Rx.pcWork, hpc]; omega
  | dis =>
    simp only [Rx.step] at hs
    left
    split at hs
    · rename_i hpc
      cases hs
      simp only [Rx.work, Rx.pcWork, hpc]; omega
    · rename_i hpc
      cases hs
      have := (h.posting hpc).1
      simp [Rx.work, Rx.pcWork, hpc, this]; omega
    · rename_i hpc
      cases hs
      simp only [Rx.work, Rx.pcWork, hpc]
      cases s.dtimer <;> simp <;> split <;> omega
    · cases hs
  | dtimer =>
    simp only [Rx.step] at hs
    left
    split at hs
    · rename_i hd
      cases hs
      simp only [Rx.work, Rx.pcWork, hd]
      simp
    · cases hs
  | read ms => exact absurd ha (by simp [RAct.Internal])
  | readError => exact absurd ha (by simp [RAct.Internal])
  | loseDispatch => exact absurd ha (by simp [RAct.Internal])
  | loseCheck => exact absurd ha (by simp [RAct.Internal])
  | pop => exact absurd ha (by simp [RAct.Internal])
  | popAll => exact absurd ha (by simp [RAct.Internal])
  | linkUp => exact absurd ha (by simp [RAct.Internal])
  | reset => exact absurd ha (by simp [RAct.Internal])

/-- Nothing is running or scheduled, except polling for room in the buffer. -/
def Rx.Quiet (limit : Nat) (s : Rx) : Prop :=
  s.posted = 0 ∧ s.pc = .idle ∧ s.dtimer = false ∧ (s.rd = .reading ∨ s.rd = .off ∨ (s.rd = .timer ∧ s.available limit = false))

theorem Rx.progress (limit : Nat) (s : Rx) (hi : s.Inv) (h : ¬ s.Quiet limit) :
    ∃ a s' es, RAct.Internal a ∧ s.step limit a = some (s', es) ∧ s'.work < s.work := by
  have key : ∀ a s' es, RAct.Internal a → a ≠ .checkTimer → s.step limit a = some (s', es) → ∃ a s' es, RAct.Internal a ∧ s.step limit a = some (s', es) ∧ s'.work < s.work := by
    intro a s' es ha hne hs
    rcases Rx.step_work hi ha hs with h1 | h1
    · exact ⟨a, s', es, ha, hs, h1⟩
    · exact absurd h1.1 hne
  by_cases hd : s.dtimer = true
  · exact key .dtimer _ _ trivial (by simp) (by simp only [Rx.step]; rw [if_pos hd])
  · have hd : s.dtimer = false := by simpa using hd
    cases hpc : s.pc with
    | got =>
      cases hcu : s.cur with
      | none => have := hi.got hpc; simp [hcu] at this
      | some m => exact key .begin _ _ trivial (by simp) (by simp only [Rx.step]; rw [if_neg (by simp [hpc]), hcu])
    | handling =>
      cases hcu : s.cur with
      | none => have := hi.handling hpc; simp [hcu] at this
      | some m => exact key (.ret true) _ _ trivial (by simp) (by simp only [Rx.step]; rw [if_neg (by simp [hpc]), hcu]; rfl)
    | clearing => exact key .dis _ _ trivial (by simp) (by simp only [Rx.step, hpc]; rfl)
    | posting => exact key .dis _ _ trivial (by simp) (by simp only [Rx.step, hpc]; rfl)
    | refused => exact key .dis _ _ trivial (by simp) (by simp only [Rx.step, hpc]; rfl)
    | idle =>
      by_cases hp : s.posted = 0
      · cases hrd : s.rd with
        | reading => exact absurd ⟨hp, hpc, hd, Or.inl hrd⟩ h
        | off => exact absurd ⟨hp, hpc, hd, Or.inr (Or.inl hrd)⟩ h
        | moved => exact key .loadDisp _ _ trivial (by simp) (by simp only [Rx.step]; rw [if_neg (by simp [hrd])])
        | check => exact key .handled _ _ trivial (by simp) (by simp only [Rx.step]; rw [if_neg (by simp [hrd])])
        | resume => exact key .resume _ _ trivial (by simp) (by simp only [Rx.step]; rw [if_neg (by simp [hrd])])
        | timer =>
          cases hv : s.available limit
          · exact absurd ⟨hp, hpc, hd, Or.inr (Or.inr ⟨hrd, hv⟩)⟩ h
          · refine ⟨.checkTimer, { s with rd := .resume }, [], trivial, ?_, ?_⟩
            · simp only [Rx.step]; rw [if_neg (by simp [hrd])]; simp [hv]
            · simp only [Rx.work, Rx.pcWork, hrd]; simp [RPc.work]
      · by_cases hdi : s.dispatching = true
        · exact key .run _ _ trivial (by simp) (by simp only [Rx.step]; rw [if_neg (by simp [hp, hpc]), if_pos hdi])
        · cases hib : s.buf.items with
          | nil => exact key .run { s with posted := s.posted - 1, dispatching := false } [] trivial (by simp) (by simp only [Rx.step]; rw [if_neg (by simp [hp, hpc]), if_neg hdi]; simp [Q.tryDequeue, hib])
          | cons m l =>
            refine key .run { s with posted := s.posted - 1, buf := { items := l, total := w64sub s.buf.total (rsz m) }, cur := some m, pc := .got, bad := s.bad || s.cur.isSome } [.taken m] trivial (by simp) ?_
            simp only [Rx.step]; rw [if_neg (by simp [hp, hpc]), if_neg hdi]; simp [Q.tryDequeue, hib]

theorem Rx.run_trans {limit : Nat} {s s1 s2 : Rx} {as bs : List RAct} {es fs : List REv} (h1 : Rx.Run limit s as s1 es) (h2 : Rx.Run limit s1 bs s2 fs) :
    Rx.Run limit s (as ++ bs) s2 (es ++ fs) := by
  induction h2 with
  | nil => simpa using h1
  | snoc s2 s3 bs a fs fs' _ hs ih =>
    rw [← List.append_assoc, ← List.append_assoc]
    exact Rx.Run.snoc _ _ _ _ _ _ _ ih hs

theorem Rx.run_one {limit : Nat} {s s1 : Rx} {a : RAct} {es : List REv} (h : s.step limit a = some (s1, es)) : Rx.Run limit s [a] s1 es := by
  have := Rx.Run.snoc _ _ _ _ _ _ _ (Rx.Run.nil (limit := limit) s) h
  simpa using this

theorem Rx.drain (limit : Nat) : ∀ (n : Nat) (s : Rx), s.Inv → s.work ≤ n →
    ∃ as s' es, Rx.Run limit s as s' es ∧ (∀ a ∈ as, RAct.Internal a) ∧ s'.Quiet limit ∧ as.length ≤ n := by
  intro n
  induction n with
  | zero =>
    intro s hi hw
    by_cases hq : s.Quiet limit
    · exact ⟨[], s, [], Rx.Run.nil s, by simp, hq, by simp⟩
    · obtain ⟨a, s', es, ha, hs, hlt⟩ := Rx.progress limit s hi hq
      omega
  | succ n ih =>
    intro s hi hw
    by_cases hq : s.Quiet limit
    · exact ⟨[], s, [], Rx.Run.nil s, by simp, hq, by simp⟩
    · obtain ⟨a, s', es, ha, hs, hlt⟩ := Rx.progress limit s hi hq
      obtain ⟨as, s2, fs, r, hia, hq2, hl⟩ := ih s' (Rx.step_inv hi hs).1 (by omega)
      refine ⟨[a] ++ as, s2, es ++ fs, Rx.run_trans (Rx.run_one hs) r, ?_, hq2, by simp; omega⟩
      intro b hb
      simp at hb
      rcases hb with rfl | hb
      · exact ha
      · exact hia b hb

theorem Rx.exec_run {limit : Nat} {s s' : Rx} {as : List RAct} {es : List REv} (h : Rx.exec limit s as = some (s', es)) : Rx.Run limit s as s' es := by
  induction as generalizing s es with
  | nil => simp [Rx.exec] at h; obtain ⟨rfl, rfl⟩ := h; exact Rx.Run.nil _
  | cons a as ih =>
    simp only [Rx.exec, Option.bind_eq_bind] at h
    rw [Option.bind_eq_some_iff] at h
    obtain ⟨⟨s1, e1⟩, h1, h2⟩ := h
    rw [Option.bind_eq_some_iff] at h2
    obtain ⟨⟨s2, e2⟩, h2, h3⟩ := h2
    simp at h3
    obtain ⟨rfl, rfl⟩ := h3
    exact Rx.run_trans (Rx.run_one h1) (ih h2)

/-- Internal actions lose no timer, do not stop reception, receive and pop nothing. -/
theorem Rx.internal_step {limit : Nat} {s s' : Rx} {a : RAct} {es : List REv} (ha : RAct.Internal a) (hs : s.step limit a = some (s', es)) :
    (s.dlost = false → s'.dlost = false) ∧ (s.rd ≠ .off → s'.rd ≠ .off) ∧ rReceived es = [] ∧ ∀ e ∈ es, RPlainEv e := by
  cases a with
  | loadDisp =>
    simp only [Rx.step] at hs
    split at hs
    · cases hs
    · cases hs; simp [rReceived]
  | handled =>
    simp only [Rx.step] at hs
    split at hs
    · cases hs
    · cases hs; cases s.available limit <;> simp [rReceived]
  | checkTimer =>
    simp only [Rx.step] at hs
    split at hs
    · cases hs
    · cases hs; cases s.available limit <;> simp [rReceived]
  | resume =>
    simp only [Rx.step] at hs
    split at hs
    · cases hs
    · cases hs; simp [rReceived]
  | run =>
    simp only [Rx.step] at hs
    split at hs
    · cases hs
    · split at hs
      · cases hs; simp [rReceived]
      · split at hs <;> (cases hs; simp [rReceived, RPlainEv])
  | begin =>
    simp only [Rx.step] at hs
    split at hs
    · cases hs
    · split at hs <;> (cases hs; simp [rReceived, RPlainEv])
  | ret ok =>
    simp only [Rx.step] at hs
    split at hs
    · cases hs
    · split at hs
      · cases hs; simp [rReceived]
      · split at hs <;> (cases hs; simp [rReceived, RPlainEv])
  | dis =>
    simp only [Rx.step] at hs
    split at hs <;> first | (cases hs; simp [rReceived]) | cases hs
  | dtimer =>
    simp only [Rx.step] at hs
    split at hs
    · cases hs; simp [rReceived]
    · cases hs
  | read ms => exact absurd ha (by simp [RAct.Internal])
  | readError => exact absurd ha (by simp [RAct.Internal])
  | loseDispatch => exact absurd ha (by simp [RAct.Internal])
  | loseCheck => exact absurd ha (by simp [RAct.Internal])
  | pop => exact absurd ha (by simp [RAct.Internal])
  | popAll => exact absurd ha (by simp [RAct.Internal])
  | linkUp => exact absurd ha (by simp [RAct.Internal])
  | reset => exact absurd ha (by simp [RAct.Internal])

theorem rReceived_append (a b : List REv) : rReceived (a ++ b) = rReceived a ++ rReceived b := by
  induction a with
  | nil => rfl
  | cons e a ih => cases e <;> simp [rReceived, ih]

theorem Rx.internal_run {limit : Nat} {s s' : Rx} {as : List RAct} {es : List REv} (hr : Rx.Run limit s as s' es) (ha : ∀ a ∈ as, RAct.Internal a) :
    (s.dlost = false → s'.dlost = false) ∧ (s.rd ≠ .off → s'.rd ≠ .off) ∧ rReceived es = [] ∧ ∀ e ∈ es, RPlainEv e := by
  induction hr with
  | nil => exact ⟨id, id, rfl, by simp⟩
  | snoc s1 s2 as a es es' hr hs ih =>
    have ih := ih (fun x hx => ha x (by simp [hx]))
    have h1 := Rx.internal_step (ha a (by simp)) hs
    refine ⟨fun h => h1.1 (ih.1 h), fun h => h1.2.1 (ih.2.1 h), by rw [rReceived_append, ih.2.2.1, h1.2.2.1]; rfl, ?_⟩
    intro e he
    rw [List.mem_append] at he
    rcases he with he | he
    · exact ih.2.2.2 e he
    · exact h1.2.2.2 e he

theorem Rx.quiet_empty {limit : Nat} {s : Rx} (hi : s.Inv) (hq : s.Quiet limit) (hl : s.dlost = false) : s.buf.items = [] ∧ s.cur = none := by
  obtain ⟨q1, q2, q3, q4⟩ := hq
  have hd : s.dispatching = false := by
    cases hd : s.dispatching
    · rfl
    · have := hi.wakeD q2 hd
      simp [q1, q3, hl] at this
  constructor
  · rcases Classical.em (s.buf.items = []) with h1 | h1
    · exact h1
    · have := hi.wakeB h1
      simp [q1, q2, hd] at this
      rcases q4 with q4 | q4 | q4
      · rw [q4] at this; cases this
      · rw [q4] at this; cases this
      · rw [q4.1] at this; cases this
  · have := hi.idle q2
    rw [hd] at this
    cases hc : s.cur with
    | none => rfl
    | some m => simp [hc] at this

end StAsio
