import Verif.Spec.Moment
import Verif.Proof.Host
import Verif.Proof.Drift
/-!
# The hostname of the moment, where the shell stops
-/
namespace Ush
open Spec
variable {E : Env} {host : Host} {u v w : Ush}

theorem driveH_chain (E : Env) (host : Host) : ∀ (ss : List Slot) (u : Ush) (inp : List UInt8) (v : Ush) (r : List UInt8),
    driveH E host u inp ss = .ok (v, r) → ∃ k ≤ ss.length, chainH E host u inp k = .ok (v, r) := by
  intro ss
  induction ss with
  | nil => intro u inp v r h; exact ⟨0, Nat.le_refl _, h⟩
  | cons s ss ih =>
    intro u inp v r h
    unfold driveH at h
    obtain ⟨⟨w, q⟩, h1, h2⟩ := M.bind_eq_ok.mp h
    by_cases hb : Blocked u inp s
    · rcases drive1_blocked (host.now E u) u inp s hb with h3 | ⟨e, h3, -⟩
      · rw [h3] at h1; cases h1
        obtain ⟨k, hk, e⟩ := ih _ _ v r h2
        exact ⟨k, Nat.le_succ_of_le hk, e⟩
      · rw [h3] at h1; cases h1
    · rw [drive1_unblocked (host.now E u) u inp s hb] at h1
      obtain ⟨k, hk, e⟩ := ih _ _ v r h2
      refine ⟨k + 1, Nat.succ_le_succ hk, ?_⟩
      rw [chainH_succ, h1]; exact e

theorem fairH_gets (f : Nat → Slot) (hf : Fair f) {inp r : List UInt8} (h : StepsH E host u inp v r) : ∃ t, driveNH E host f u inp t = .ok (v, r) := by
  obtain ⟨n, hn⟩ := h
  have idle : ∀ (w : Ush) (r : List UInt8), Idle w r → w.current.isSome = true → ∀ s, drive1 (host.now E w) w r s = .ok (w, r) := by
    intro w r hw hcw s
    rcases drive1_blocked (host.now E w) w r s (Or.inl ⟨hw.1, Or.inr hw.2⟩) with h3 | ⟨x, -, h4⟩
    · exact h3
    · have := chain_idle (host.now E w) w r hw hcw 1
      rw [chain_succ, h4] at this; cases this
  have key : ∀ (n : Nat) (w : Ush) (q : List UInt8) (t : Nat), chainH E host w q n = .ok (v, r) → driveNH E host f u inp t = .ok (w, q) →
      ∃ t', driveNH E host f u inp t' = .ok (v, r) := by
    intro n
    induction n with
    | zero => intro w q t h1 h2; cases h1; exact ⟨t, h2⟩
    | succ n ih =>
      intro w q t h1 h2
      rw [chainH_succ] at h1
      obtain ⟨p, hp, h3⟩ := M.bind_eq_ok.mp h1
      by_cases hw : Idle w q
      · have hcw : w.current.isSome = true := by
          cases hcw : w.current.isSome with
          | true => rfl
          | false => rw [drive1_noroot _ w q _ hcw] at hp; cases hp
        rw [idle w q hw hcw] at hp
        cases hp
        exact ih w q t h3 h2
      · obtain ⟨t', -, h4⟩ := fairH_step E host f hf u inp t w q h2 p hp hw
        exact ih p.1 p.2 t' h3 h4
  exact key n u inp 0 hn rfl

/-- The shell never waits for a key again, whatever the hostname is. -/
def NeverH (E : Env) (host : Host) (u : Ush) (i : List UInt8) : Prop := ∀ (n : Nat) (v : Ush) (r : List UInt8), chainH E host u i n = .ok (v, r) → v.state ≠ .readChar ∧ r = i

/-- If the key `c` is the last one with every hostname, then it is the last one. -/
theorem never_dynamic (hE : EnvOn outside E) (hh : host.Ok) {c : UInt8} {i : List UInt8} (hu : u.state = .readChar)
    (hn : ∀ h, cNul ∉ h → ∃ v, Steps (E.named h) u (c :: i) v i ∧ Never (E.named h) v i) :
    ∃ v, StepsH E host u (c :: i) v i ∧ NeverH E host v i := by
  have hs : u.state ≠ .promptHost := by rw [hu]; simp
  -- the key is read
  obtain ⟨w, hw⟩ : ∃ w, ∀ h, drive1 (E.named h) u (c :: i) .full = .ok (w, i) := by
    obtain ⟨v, ⟨n, s⟩, -⟩ := hn (host []) (hh.text _)
    cases n with
    | zero =>
      have := congrArg List.length (congrArg Prod.snd (Except.ok.inj s))
      simp at this
    | succ n =>
      change chain _ _ _ (n + 1) = _ at s
      rw [chain_succ] at s
      obtain ⟨⟨w, q⟩, h1, -⟩ := M.bind_eq_ok.mp s
      refine ⟨w, fun h => ?_⟩
      rw [drive1_named hs, ← drive1_named (h := host []) hs, h1]
      unfold drive1 at h1
      obtain ⟨⟨w', b⟩, hw, h1⟩ := M.bind_eq_ok.mp h1
      cases h1
      rw [if_pos ⟨hu, rfl⟩]; rfl
  have one : chainH E host u (c :: i) 1 = .ok (w, i) := by
    rw [chainH_succ]
    unfold Host.now
    rw [hw]; rfl
  -- from here on
  have dead : ∀ h, cNul ∉ h → ∀ n v q, chain (E.named h) w i n = .ok (v, q) → v.state ≠ .readChar ∧ q = i := by
    intro h hk n v q e
    obtain ⟨x, s, d⟩ := hn h hk
    have e' : chain (E.named h) u (c :: i) (n + 1) = .ok (v, q) := by rw [chain_succ, hw h]; exact e
    obtain ⟨k1, k2⟩ := Never.before s d _ e'
    have k3 := chain_pending _ e
    have : q = i := (chain_suffix _ e).eq_of_length (by omega)
    subst this
    exact ⟨k2 rfl, rfl⟩
  refine ⟨w, ⟨1, one⟩, ?_⟩
  have aims : Aims w := drive1_aims (hE.named (host [])) (Off.aims (.of (by rw [hu]; rfl) (by rw [hu]; simp))) (hw _)
  -- up to the prompt the hostname does not matter; from there on it does not change
  have key : ∀ (n : Nat) (v : Ush) (q : List UInt8), chainH E host w i n = .ok (v, q) →
      q = i ∧ Aims v ∧ ((∀ h, chain (E.named h) w i n = .ok (v, i)) ∨ (Closing v ∧ chain (E.named (host v.log)) w i n = .ok (v, i))) := by
    intro n
    induction n with
    | zero => intro v q h; cases h; exact ⟨rfl, aims, .inl fun _ => rfl⟩
    | succ n ih =>
      intro v q h
      change driveH E host w i (List.replicate (n + 1) Slot.full) = _ at h
      rw [← List.replicate_append_replicate, driveH_append] at h
      obtain ⟨⟨x, p⟩, h1, h2⟩ := M.bind_eq_ok.mp h
      obtain ⟨rfl, ax, hx⟩ := ih x p h1
      have h2 : drive1 (host.now E x) x p .full = .ok (v, q) := by
        change chainH E host x p 1 = _ at h2
        rw [chainH_succ] at h2
        obtain ⟨⟨y, r⟩, h3, h4⟩ := M.bind_eq_ok.mp h2
        cases h4
        exact h3
      have hxn : chain (E.named (host x.log)) w p n = .ok (x, p) := by
        rcases hx with hx | ⟨-, hx⟩
        · exact hx _
        · exact hx
      have hxr := (dead _ (hh.text _) n x p hxn).1
      have hq : q = p := by
        rcases drive1_pending h2 with h3 | ⟨h3, -⟩
        · exact h3
        · exact absurd h3 hxr
      subst hq
      have av : Aims v := drive1_aims (hE.named _) ax h2
      refine ⟨rfl, av, ?_⟩
      have nexts : ∀ h, chain (E.named h) w q n = .ok (x, q) → drive1 (E.named h) x q .full = .ok (v, q) → chain (E.named h) w q (n + 1) = .ok (v, q) := by
        intro h e1 e2
        rw [chain_add, e1, M.ok_bind]
        show chain (E.named h) x q 1 = _
        rw [chain_succ, e2]; rfl
      have closing : Closing x → Closing v ∧ chain (E.named (host v.log)) w q (n + 1) = .ok (v, q) := by
        intro C
        obtain ⟨c1, c2⟩ := drive1_closing ax C hxr h2
        have hl : host v.log = host x.log := by
          rcases c2 with e | ⟨c, e⟩
          · rw [e]
          · rw [e, hh.quiet]
        refine ⟨c1, ?_⟩
        rw [hl]
        exact nexts _ hxn h2
      rcases hx with hx | ⟨C, -⟩
      · by_cases hp : x.state = .promptHost
        · exact .inr (closing (.inl (by unfold next; rw [hp]; rfl)))
        · refine .inl fun h => nexts h (hx h) ?_
          unfold Host.now at h2
          rw [drive1_named hp] at h2 ⊢
          exact h2
      · exact .inr (closing C)
  intro n v q h
  obtain ⟨rfl, -, hk⟩ := key n v q h
  refine ⟨?_, rfl⟩
  rcases hk with hk | ⟨-, hk⟩
  · exact (dead _ (hh.text []) n v _ (hk _)).1
  · exact (dead _ (hh.text _) n v _ hk).1

theorem fairH_never (f : Nat → Slot) (hf : Fair f) {inp r : List UInt8} (h : StepsH E host u inp v r) (hn : NeverH E host v r) :
    ∃ N, ∀ n ≥ N, ∀ w q, driveNH E host f u inp n = .ok (w, q) → w.state ≠ .readChar ∧ q = r := by
  obtain ⟨N, hN⟩ := fairH_gets f hf h
  refine ⟨N, fun n hle w q e => ?_⟩
  obtain ⟨d, rfl⟩ := Nat.exists_eq_add_of_le hle
  unfold driveNH at hN e
  rw [List.range_add, List.map_append, driveH_append, hN] at e
  obtain ⟨k, -, hk⟩ := driveH_chain E host _ _ _ _ _ e
  exact hn k _ _ hk

end Ush
