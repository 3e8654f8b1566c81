import Verif.Sessions.Model
/-!
What is wanted of the session manager.
-/
namespace Verif.Sessions

/-- Session `i` is running and connected as `c`. -/
def Mgr.ConnectedAs (m : Mgr) (i : Nat) (c : Cid) : Prop :=
  ∃ s, m.sess[i]? = some s ∧ s.ended = false ∧ s.st = .connected ∧ s.cid = some c

/-- At most one session is connected as an account (`session_manager.rs`:207-244, `preconnect_packet.rs`:89). -/
def OnePerAccount (m : Mgr) : Prop :=
  ∀ i j c, m.ConnectedAs i c → m.ConnectedAs j c → i = j

/-- A connected session uses the keys that were agreed on in its own handshake. -/
def OwnKeys (m : Mgr) : Prop :=
  ∀ i c, m.ConnectedAs i c → m.crypto.get? c = some i

/-- A connected session is found under its CID: it gets what is sent to the account. -/
def Reachable (m : Mgr) : Prop :=
  ∀ i c, m.ConnectedAs i c → m.online.get? c = some i

/-- What is found under a CID is a session of the account that is not over. -/
def NoneStale (m : Mgr) : Prop :=
  ∀ i c, m.online.get? c = some i → ∃ s, m.sess[i]? = some s ∧ s.over = false ∧ s.cid = some c

/-- No session that is not over has anything to do with the account. -/
def Mgr.Free (m : Mgr) (c : Cid) : Prop :=
  ∀ s ∈ m.sess, s.over = false → s.cid ≠ some c ∧ s.rcid ≠ some c ∧
    ∀ p ∈ s.pend, (∀ t, p ≠ .syn c t) ∧ ∀ on tok, p ≠ .wait c on tok

/-- The SYN for `c` of session `sid` is let through. -/
def Mgr.LetThrough (m : Mgr) (sid : Nat) (c : Cid) : Prop :=
  ∀ k, ∃ s, (m.step (.syn sid c k)).sess[sid]? = some s ∧ s.ended = false ∧ ∃ t, .syn c t ∈ s.pend

/-- A new connection from which nothing has been received. -/
def Mgr.New (m : Mgr) (sid : Nat) : Prop :=
  ∃ s : Sess, m.sess[sid]? = some s ∧ s = { addr := s.addr } ∧ m.prov.get? s.addr = some sid

/-- In a calm execution no SYN has to wait for the end of another session, and SYNs are answered before their reservation
expires. -/
def Mgr.Calm (m : Mgr) : Ev → Prop
  | .syn _ c k => ∀ i x, m.find c k = some i → m.sess[i]? = some x → x.st ≠ .disconnecting
  | .goOn sid i _ => ∀ s c t, m.sess[sid]? = some s → s.pend[i]? = some (.syn c (some t)) → m.now < t + 30
  | _ => True

/-- In a clean execution no client says that its login failed after the server accepted it, and no session that is logged in
panics. -/
def Mgr.Clean (m : Mgr) : Ev → Prop
  | .failure sid => ∀ s, m.sess[sid]? = some s → s.conn = false
  | .finish sid panic => ∀ s, m.sess[sid]? = some s → s.conn = true → panic = false
  | _ => True

/-- In an orderly execution for an account no SYN for it is let through while another one waits for the end of an earlier
session or has waited for it and has not gone on yet; none waits in vain; SYNs are answered before their reservation expires;
and it is clean for the account. -/
def Mgr.Orderly (m : Mgr) (c : Cid) : Ev → Prop
  | .syn _ c' k => c' = c → m.find c k = none →
      ∀ s ∈ m.sess, ∀ p ∈ s.pend, (∀ on tok, p ≠ .wait c on tok) ∧ p ≠ .syn c none
  | .timeout sid i => ∀ s on tok, m.sess[sid]? = some s → s.pend[i]? ≠ some (.wait c on tok)
  | .goOn sid i _ => ∀ s t, m.sess[sid]? = some s → s.pend[i]? = some (.syn c (some t)) → m.now < t + 30
  | .failure sid => ∀ s, m.sess[sid]? = some s → s.rcid = some c → s.conn = false
  | .finish sid panic => ∀ s, m.sess[sid]? = some s → s.rcid = some c → s.conn = true → panic = false
  | _ => True

/-- All steps of an execution have a property. -/
inductive RunWith (P : Mgr → Ev → Prop) : List Ev → Mgr → Prop
  | init : RunWith P [] Mgr.init
  | step {evs m ev} : RunWith P evs m → m.Allowed ev → P m ev → RunWith P (evs ++ [ev]) (m.step ev)

end Verif.Sessions
