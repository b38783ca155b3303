import Verif.Model.Socks

/-!
# Helper lemmas about the SOCKS clients
-/

set_option autoImplicit false

namespace StAsio

theorem be_two (n : Nat) : be 2 n = [UInt8.ofNat (n / 256 % 256), UInt8.ofNat (n % 256)] := by simp [be]

theorem beVal_be_two {n : Nat} (h : n < 65536) : beVal (be 2 n) = n := by
  rw [be_two]
  simp [beVal, UInt8.toNat_ofNat']
  omega

/-- Writing right after what is known of the beginning of the buffer. -/
theorem poke_prefix {b p x : Bytes} {off : Nat} (hp : b.take off = p) (hl : p.length = off) (h : off + x.length ≤ b.length) : ∃ b', poke b off x = some b' ∧ b'.length = b.length ∧ b'.take (off + x.length) = p ++ x := by
  refine ⟨b.take off ++ x ++ b.drop (off + x.length), by simp [poke, h], ?_, ?_⟩
  · simp; omega
  · rw [hp]
    rw [List.take_append_of_le_length (by simp; omega)]
    rw [List.take_of_length_le (by simp; omega)]

theorem poke_some {b b' x : Bytes} {off : Nat} (h : poke b off x = some b') : off + x.length ≤ b.length ∧ b'.length = b.length := by
  unfold poke at h
  split at h
  · cases h; refine ⟨by assumption, by simp; omega⟩
  · cases h

/-! ## SOCKS4 -/

theorem S4.fill_eq {s : S4} {port : Nat} {ip : Bytes} (hb : s.buf.length = 16) (hi : ip.length = 4) : s.fill port ip = some { s with buf := [4, 1] ++ be 2 port ++ ip ++ stAsio ++ [0], reqLen := 16 } := by
  obtain ⟨b0, h0, l0, t0⟩ := poke_prefix (b := s.buf) (p := []) (x := [4]) (off := 0) rfl rfl (by simp; omega)
  obtain ⟨b1, h1, l1, t1⟩ := poke_prefix (b := b0) (p := [4]) (x := [1]) (off := 1) (by simpa using t0) rfl (by simp; omega)
  obtain ⟨b2, h2, l2, t2⟩ := poke_prefix (b := b1) (p := [4, 1]) (x := be 2 port) (off := 2) (by simpa using t1) rfl (by simp [be_two]; omega)
  obtain ⟨b3, h3, l3, t3⟩ := poke_prefix (b := b2) (p := [4, 1] ++ be 2 port) (x := ip) (off := 4) (by simpa [be_two] using t2) (by simp [be_two]) (by omega)
  obtain ⟨b4, h4, l4, t4⟩ := poke_prefix (b := b3) (p := [4, 1] ++ be 2 port ++ ip) (x := stAsio ++ [0]) (off := 8) (by simpa [hi] using t3) (by simp [be_two, hi]) (by simp [stAsio]; omega)
  have t4' : b4 = [4, 1] ++ be 2 port ++ ip ++ stAsio ++ [0] := by
    have hlen : 8 + (stAsio ++ [0]).length = 16 := by simp [stAsio]
    rw [hlen, List.take_of_length_le (by omega)] at t4
    rw [t4]; simp
  simp only [S4.fill, Option.bind_eq_bind, h0, h1, h2, h3, h4, Option.bind_some, t4']
  rfl

theorem readSocks4_fill {port : Nat} {ip : Bytes} (hp : port < 65536) (hi : ip.length = 4) : readSocks4 ([4, 1] ++ be 2 port ++ ip ++ stAsio ++ [0]) = some (ip, port, stAsio) := by
  match ip, hi with
  | [a, b, c, d], _ =>
    have := beVal_be_two hp
    rw [be_two] at this ⊢
    simp [readSocks4, stAsio, this]

theorem s4Target_append (es fs : List S4Ev) (t : Option (Bytes × Nat)) : s4Target (es ++ fs) t = s4Target fs (s4Target es t) := by
  induction es generalizing t with
  | nil => rfl
  | cons e es ih => cases e <;> simp [s4Target, ih]

theorem s4Fresh_append (es fs : List S4Ev) (f : Bool) : s4Fresh (es ++ fs) f = s4Fresh fs (s4Fresh es f) := by
  induction es generalizing f with
  | nil => rfl
  | cons e es ih => cases e <;> simp [s4Fresh, ih]

/-- What holds of the SOCKS4 client after the history es. -/
structure S4.Inv (s : S4) (t : Option (Bytes × Nat)) (f : Bool) : Prop where
  len : s.buf.length = 16
  none : t = none → s.reqLen = 0
  busy : s.phase ≠ .free → s.reqLen = 16
  some : ∀ ip port, t = some (ip, port) → ip.length = 4 ∧ port < 65536 ∧ s.reqLen = 16 ∧ (f = true → s.buf = [4, 1] ++ be 2 port ++ ip ++ stAsio ++ [0])

theorem S4.inv_step {s s' : S4} {a : S4Act} {fs : List S4Ev} {t : Option (Bytes × Nat)} {f : Bool} (h : s.Inv t f) (hs : s.step a = some (s', fs)) : s'.Inv (s4Target fs t) (s4Fresh fs f) := by
  obtain ⟨h1, h2, h3, h4⟩ := h
  cases a with
  | setTarget port tg =>
    simp only [S4.step] at hs
    split at hs
    · rename_i hc
      split at hs
      · rename_i ip
        split at hs
        · rename_i hi
          split at hs
          · cases hs; refine ⟨h1, fun _ => rfl, fun hne => absurd hc.1 hne, ?_⟩
            intro ip port h; simp [s4Target] at h
          · rw [S4.fill_eq (s := { s with reqLen := 0 }) h1 hi] at hs
            simp at hs
            obtain ⟨rfl, rfl⟩ := hs
            refine ⟨by simp [be_two, hi, stAsio], ?_, ?_, ?_⟩
            · simp [s4Target]
            · simp
            · intro ip' port' h
              simp [s4Target] at h
              obtain ⟨rfl, rfl⟩ := h
              exact ⟨hi, hc.2, rfl, by simp⟩
        · cases hs
      · split at hs
        · cases hs; refine ⟨h1, fun _ => rfl, fun hne => absurd hc.1 hne, ?_⟩
          intro ip port h; simp [s4Target] at h
        · cases hs
      · cases hs; refine ⟨h1, fun _ => rfl, fun hne => absurd hc.1 hne, ?_⟩
        intro ip port h; simp [s4Target] at h
    · cases hs
  | tcpUp =>
    simp only [S4.step] at hs
    split at hs
    · split at hs
      · cases hs; exact ⟨h1, h2, h3, h4⟩
      · rename_i hr
        cases hs
        refine ⟨h1, h2, fun _ => ?_, h4⟩
        cases ht : t with
        | none => exact absurd (h2 ht) hr
        | some v => exact (h4 v.1 v.2 ht).2.2.1
    · cases hs
  | tcpFail =>
    simp only [S4.step] at hs
    split at hs
    · cases hs; exact ⟨h1, h2, h3, h4⟩
    · cases hs
  | writeDone ok =>
    simp only [S4.step] at hs
    split at hs
    · rename_i hp
      split at hs
      · cases hs; exact ⟨h1, h2, fun _ => h3 (by rw [hp]; simp), h4⟩
      · cases hs; exact ⟨h1, h2, fun hf => absurd rfl hf, h4⟩
    · cases hs
  | readErr =>
    simp only [S4.step] at hs
    split at hs
    · cases hs; exact ⟨h1, h2, fun hf => absurd rfl hf, h4⟩
    · cases hs
  | readDone bs =>
    simp only [S4.step] at hs
    split at hs
    · simp only [Option.bind_eq_bind] at hs
      rw [Option.bind_eq_some_iff] at hs
      obtain ⟨b, hb, hs⟩ := hs
      have hl := (poke_some hb).2
      split at hs <;> cases hs <;> exact ⟨by simp only; omega, h2, fun hf => absurd rfl hf, fun ip port h => ⟨(h4 ip port h).1, (h4 ip port h).2.1, (h4 ip port h).2.2.1, fun hf => by simp [s4Fresh] at hf⟩⟩
    · cases hs

theorem S4.inv_run {s : S4} {as : List S4Act} {es : List S4Ev} (h : S4.Run S4.init as s es) : s.Inv (s4Target es none) (s4Fresh es false) := by
  generalize h0 : S4.init = s0 at h
  induction h with
  | nil => subst h0; exact ⟨rfl, fun _ => rfl, fun h => absurd rfl h, fun ip port h => by simp [s4Target] at h⟩
  | snoc s1 s2 as a es fs hr hs ih =>
    rw [s4Target_append, s4Fresh_append]
    exact S4.inv_step ih hs

theorem S4.run_trans {s s1 s2 : S4} {as bs : List S4Act} {es fs : List S4Ev} (h1 : S4.Run s as s1 es) (h2 : S4.Run s1 bs s2 fs) : S4.Run s (as ++ bs) s2 (es ++ fs) := by
  induction h2 with
  | nil => simpa using h1
  | snoc s2 s3 bs a fs fs' _ hs ih =>
    rw [← List.append_assoc, ← List.append_assoc]
    exact S4.Run.snoc _ _ _ _ _ _ _ ih hs

theorem S4.run_one {s s' : S4} {a : S4Act} {fs : List S4Ev} (h : s.step a = some (s', fs)) : S4.Run s [a] s' fs := by
  simpa using S4.Run.snoc _ _ _ _ _ _ _ (S4.Run.nil s) h

theorem S4.exec_run {s s' : S4} {as : List S4Act} {es : List S4Ev} (h : S4.exec s as = some (s', es)) : S4.Run s as s' es := by
  induction as generalizing s es with
  | nil => simp [S4.exec] at h; obtain ⟨rfl, rfl⟩ := h; exact S4.Run.nil _
  | cons a as ih =>
    simp only [S4.exec, Option.bind_eq_bind] at h
    rw [Option.bind_eq_some_iff] at h
    obtain ⟨⟨s1, e1⟩, h1, h2⟩ := h
    rw [Option.bind_eq_some_iff] at h2
    obtain ⟨⟨s2, e2⟩, h2, h3⟩ := h2
    simp at h3
    obtain ⟨rfl, rfl⟩ := h3
    exact S4.run_trans (S4.run_one h1) (ih h2)

/-- An event of a run comes from one step. -/
theorem S4.run_event {s : S4} {as : List S4Act} {es es1 es2 : List S4Ev} {e : S4Ev} (h : S4.Run S4.init as s es) (he : es = es1 ++ e :: es2) :
    ∃ as1 s1 a s2 fs1 fs2 gs, S4.Run S4.init as1 s1 gs ∧ s1.step a = some (s2, fs1 ++ e :: fs2) ∧ es1 = gs ++ fs1 ∧ fs2 <+: es2 := by
  generalize h0 : S4.init = s0 at h
  induction h generalizing es1 es2 with
  | nil => simp at he
  | snoc s1 s2 as a es fs hr hs ih =>
    rcases Nat.lt_or_ge es1.length es.length with hlt | hge
    · have : ∃ es2', es = es1 ++ e :: es2' ∧ es2' <+: es2 := by
        have h1 : es <+: es1 ++ e :: es2 := ⟨fs, he⟩
        rw [List.prefix_iff_eq_take] at h1
        rw [List.take_append, List.take_of_length_le (by omega)] at h1
        obtain ⟨k, hk⟩ : ∃ k, es.length - es1.length = k + 1 := ⟨es.length - es1.length - 1, by omega⟩
        rw [hk] at h1
        exact ⟨es2.take k, by simpa using h1, List.take_prefix _ _⟩
      obtain ⟨es2', h1, hpre⟩ := this
      obtain ⟨as1, t1, a', t2, fs1, fs2, gs, r1, r2, r3, r4⟩ := ih h1
      subst h0
      exact ⟨as1, t1, a', t2, fs1, fs2, gs, r1, r2, r3, r4.trans hpre⟩
    · subst h0
      obtain ⟨fs1, rfl⟩ : es <+: es1 := by
        have h1 : es <+: es1 ++ e :: es2 := ⟨fs, he⟩
        exact List.prefix_of_prefix_length_le h1 (List.prefix_append _ _) hge
      rw [List.append_assoc] at he
      have := List.append_cancel_left he
      exact ⟨as, s1, a, s2, fs1, es2, es, hr, by rw [hs, this], rfl, List.prefix_rfl⟩

end StAsio
