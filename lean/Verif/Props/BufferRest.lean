import Verif.Proofs.BufferRest
/-!
C138: the queue in front of an endpoint comes to rest, and then nothing is left in it.
-/
namespace Verif.Props
open Verif.Buffer Verif.Buffer.Rest

/-- C138: once nobody pushes or answers a further request and nobody closes the queue, only finitely many steps are left, whatever the order
in which the goroutines take them. -/
theorem C138_rest {R cap : Nat} (hR : 0 < R) {cs : List Choice} {s : St} (h : run R cap init cs = some s) :
    ∃ b, ∀ ds s', Onward R cap s ds s' → ds.length ≤ b := by
  obtain ⟨B, hb⟩ := bnd_run ⟨0, bnd_init⟩ h
  exact ⟨measure B s, fun ds s' hd => by have := (onward hR h hb hd).1; omega⟩

/-- C138: when nothing can go on any more, the channel has been emptied by those who receive from it, and every `push` that was called has
returned and its request was put into the channel or answered, for a queue nobody has begun to close. -/
theorem C138_all {R cap : Nat} (hR : 0 < R) (hcap : 0 < cap) {cs ds : List Choice} {s s' : St} (h : run R cap init cs = some s)
    (ho : s.closing = 0) (hd : Onward R cap s ds s') (hq : ∀ c, Begun s'.log c → step R cap s' c = none) :
    s'.chan = [] ∧ ∀ r, .call r ∈ s.log → .ret r ∈ s'.log ∧ (r ∈ sent s'.log ∨ .answered r ∈ s'.log) := by
  obtain ⟨B, hb⟩ := bnd_run ⟨0, bnd_init⟩ h
  obtain ⟨-, ⟨cs', h'⟩, hcl, hlog⟩ := onward hR h hb hd
  obtain ⟨r1, r2, r3, r4, -⟩ := at_rest hR hcap h' (by omega) hq
  have hsaid := said_run said_init h'
  have hret : ∀ r, .call r ∈ s'.log → .ret r ∈ s'.log := fun r hr => hsaid.ret r (r4 r hr)
  refine ⟨r1, fun r hr => ⟨hret r (hlog _ hr), ?_⟩⟩
  rcases C40_nothing_forgotten hR h' (.inl r2) r3 (hret r (hlog _ hr)) with a | a | ⟨_, _, q, _, _, _, hp1, hp2⟩
  · exact .inl a
  · exact .inr a
  · exact absurd (hret q hp1) hp2

/-- Two requests in the queue, whose rows are of length 2, one being pushed and one being answered; at rest all four went one way or another and no
goroutine can go on. -/
def restCs : List Choice := rep 4 (.push 0) ++ rep 9 (.push 1) ++ rep 8 (.push 2) ++ rep 4 (.push 3) ++ rep 1 (.answer 2)
def restDs : List Choice := rep 2 (.answer 2) ++ [.recv] ++ rep 15 .loop ++ [.recv] ++ rep 5 (.push 3) ++ rep 10 .loop ++ [.recv]

example : (run 2 1 init restCs).map (fun s => (s.closing, sent s.log, s.push 3, s.life 2)) = some (0, [0], .readRow 2, .prepared) := by
  decide +kernel

example : (run 2 1 init (restCs ++ restDs)).map (fun s => (sent s.log, s.chan, s.life 2, slots s.log)) = some ([0, 1, 3], [], .gone, [1, 2, 3]) ∧
    (run 2 1 init (restCs ++ restDs)).any (fun s => (([0, 1, 2, 3].flatMap fun r => [Choice.push r, .headFirst r]) ++ [Choice.answer 2, .loop, .recv]).all
      fun c => (step 2 1 s c).isNone) = true := by
  decide +kernel

end Verif.Props
