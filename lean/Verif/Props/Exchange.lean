import Mathlib.Order.Basic
import Verif.Model.Exchange
import Verif.Props.CommandServer
/-!
# C161: a request/reply exchange between two devices
-/

namespace Spine.Exchange

open BufStream Ring Server

/-- Copies have room for every line that the input buffers (`nc` and `ns` bytes) can hold; a server reads requests in place only if they
all have the same length, and this length and the delimiter divide the input buffer evenly. -/
def Fit (nc ns : Nat) (reqs : List (List Byte)) : Op → Prop
  | .clientTurn dst mx => nc < mx ∧ mx ≤ dst.length
  | .serverTurn (.copy dst mx) => ns < mx ∧ mx ≤ dst.length
  | .serverTurn .view => ∃ k, (∀ r ∈ reqs, r.length = k) ∧ (k + 1) ∣ ns
  | _ => True

/-- A port that takes `a` bytes. -/
def Takes {σ : Type} (P : Port σ) (R : σ → List Byte → List Byte → Nat → Prop) (a : Nat) : Prop :=
  ∀ {s inq outq room} (bytes : List Byte), R s inq outq room → inq.length + bytes.length ≤ a →
    ∃ k s', P.inject s bytes = .ok (k, s') ∧ R s' (inq ++ bytes) outq room

/-- One round of the loops of both applications, in which the wires carry what there is. -/
def round (dst : List Byte) (mx : Nat) (how : How) (k l : Nat) : List Op :=
  [.clientTurn dst mx, .clientPush, .forward k, .serverPull, .serverTurn how, .serverPush, .backward l, .clientPull]

section side

variable {σ : Type} {P : Port σ} {R : σ → List Byte → List Byte → Nat → Prop} {a : Nat}
variable {D : List Byte} {n m fuel : Nat} {s : BufStream σ} {q p inq outq : List Byte} {room : Nat}

/-- One end: the input buffer holds `q`, the output buffer `p`, the port `inq` and `outq`. -/
structure Side (R : σ → List Byte → List Byte → Nat → Prop) (D : List Byte) (n m : Nat) (s : BufStream σ) (q p inq outq : List Byte) (room : Nat) :
    Prop where
  inv : Inv n m s q p
  port : R s.stream inq outq room
  delims : s.input.delims = D
  fine : s.input.ring.overwritten = 0

theorem Side.pull (hP : P.Lossless R a) (hfa : a < fuel) (h : Side R D n m s q p inq outq room) (hle : (q ++ inq).length ≤ n)
    (hno : (q ++ inq).length = n → ¬ Lines.NoLine D (q ++ inq)) :
    ∃ k s', s.pullInData P.stream fuel = .ok (k, s') ∧ Side R D n m s' (q ++ inq) p [] outq room ∧ s'.input.ring.tail = s.input.ring.tail := by
  obtain ⟨k, s', e, k1, k2, k3, k4, k5, k6, k7, k8, k9⟩ := pullLoop_fits hP.stream fuel 0 0 h.inv.input.1 h.fine (fun hn => by
    have : (q ++ inq).length = n := Nat.le_antisymm hle hn
    rw [List.take_of_length_le hle, h.delims]
    exact hno this) h.port (by have := hP.bound h.port; omega)
  have hk : k = inq.length := by
    by_contra hc
    have := k9 (by omega)
    simp only [List.length_append] at hle
    omega
  subst hk
  rw [List.take_length] at k3
  rw [List.drop_length] at k8
  exact ⟨_, s', e, ⟨⟨⟨k3, by simp [k4]⟩, by rw [k6]; exact h.inv.output⟩, k8, k7.trans h.delims, k4⟩, k5⟩

theorem Side.push (hP : P.Lossless R a) (hfm : m < fuel) (h : Side R D n m s q p inq outq room) :
    ∃ k s' room', s.pushOutData P.stream fuel = .ok (k, s') ∧ Side R D n m s' q (p.drop room) inq (outq ++ p.take room) room' ∧
      s'.input = s.input := by
  have hpl : p.length < fuel := by have := h.inv.output.qle; omega
  obtain ⟨s₁, e, hrep, hin, hdel, hR⟩ := pushLoop_spec hP.stream fuel (s := s) 0 h.inv.output h.port (by omega)
  exact ⟨_, s₁, _, e, ⟨⟨by rw [hin]; exact h.inv.input, hrep⟩, hR, by rw [hin]; exact h.delims, by rw [hin]; exact h.fine⟩, hin⟩

theorem Side.stream (h : Side R D n m s q p inq outq room) {st : σ} {inq' outq' : List Byte} {room' : Nat} (hR : R st inq' outq' room') :
    Side R D n m { s with stream := st } q p inq' outq' room' :=
  ⟨⟨h.inv.input, h.inv.output⟩, hR, h.delims, h.fine⟩

theorem Side.write (h : Side R D n m s q p inq outq room) {bytes : List Byte} (hb : p.length + bytes.length ≤ m) :
    ∃ k s', s.bufferedWriteMany bytes false = .ok (k, s') ∧ Side R D n m s' q (p ++ bytes) inq outq room ∧ s'.input = s.input := by
  obtain ⟨r', e, hr', -⟩ := Ring.Rep.pushMany_false bytes h.inv.output
  rw [List.take_of_length_le (by omega)] at hr'
  exact ⟨_, { s with output := { s.output with ring := r' } }, by simp only [bufferedWriteMany, e, res_bind_ok, res_pure]; rfl,
    ⟨⟨h.inv.input, hr'⟩, h.port, h.delims, h.fine⟩, rfl⟩

theorem Side.get (h : Side R D n m s q p inq outq room) {line rest dst : List Byte} {mx : Nat} (hf : Lines.First D q line rest) (hm : n < mx)
    (hdst : mx ≤ dst.length) :
    ∃ s' dst', s.input.hasLine = .ok true ∧ s.getNextLine dst mx none = .ok ((line.length, dst'), s') ∧ dst'.take line.length = line ∧
      Side R D n m s' rest p inq outq room := by
  rw [← h.delims] at hf
  have hlen : line.length + 1 ≤ n := by
    have := h.inv.input.1.qle
    obtain ⟨d, -, he, -⟩ := hf
    rw [he] at this
    simp at this
    omega
  obtain ⟨l', e', h', hd', ho'⟩ := LineBuf.getNextLine_first' h.inv.input.1 hf (.inl rfl) dst mx (by omega) hdst
  refine ⟨{ s with input := l' }, line ++ [0] ++ dst.drop (line.length + 1), ?_, by simp only [getNextLine, e', res_bind_ok, res_pure], ?_,
    ⟨⟨h', by simp [ho']⟩, h.inv.output⟩, h.port, hd'.trans h.delims, ho'⟩
  · have hll := LineBuf.length_first h.inv.input.1 hf
    simp [LineBuf.hasLine, hll]
  · rw [List.append_assoc, List.take_left']; rfl

theorem Side.none (h : Side R D n m s q p inq outq room) (hno : Lines.NoLine D q) : s.input.hasLine = .ok false := by
  rw [← h.delims] at hno
  simp [LineBuf.hasLine, LineBuf.length_none h.inv.input.1 hno]

end side

/-- What travels: nothing, or a line. -/
def Token (D : List Byte) (fin : Byte) (X : List Byte) : Prop := X = [] ∨ ∃ r, X = r ++ [fin] ∧ ∀ c ∈ r, c ∉ D

theorem Token.part {D : List Byte} {fin : Byte} (hfin : fin ∈ D) {q rest : List Byte} (h : Token D fin (q ++ rest)) :
    (Lines.NoLine D q ∧ (q = [] ∨ rest ≠ [])) ∨ (rest = [] ∧ ∃ r, q = r ++ [fin] ∧ (∀ c ∈ r, c ∉ D) ∧ Lines.First D q r []) := by
  rcases h with h | ⟨r, h, hr⟩
  · simp at h
    exact .inl ⟨by simp [h.1, Lines.NoLine], .inl h.1⟩
  · rcases List.eq_nil_or_concat rest with rfl | ⟨rest', x, rfl⟩
    · simp only [List.append_nil] at h
      exact .inr ⟨rfl, r, h, hr, fin, hfin, h, hr⟩
    · rw [List.concat_eq_append, ← List.append_assoc] at h
      obtain ⟨h, -⟩ := List.append_inj' h rfl
      exact .inl ⟨fun c hc => hr c (by rw [← h]; simp [hc]), .inr (by simp)⟩

/-- How far the exchange has come: `i` requests are done; `X` are the bytes of a request on their way to the server, `Y` those of a reply
on their way back. -/
inductive Phase (reqs : List (List Byte)) (f : List Byte → List Byte) (fin : Byte) (i : Nat) :
    List (List Byte) → Bool → List (List Byte) → List Byte → List Byte → Prop
  | idle : i ≤ reqs.length → Phase reqs f fin i (reqs.drop i) false (reqs.take i) [] []
  | asking {r : List Byte} : reqs[i]? = some r → Phase reqs f fin i (reqs.drop (i + 1)) true (reqs.take i) (r ++ [fin]) []
  | answering {r : List Byte} : reqs[i]? = some r → Phase reqs f fin i (reqs.drop (i + 1)) true (reqs.take (i + 1)) [] (f r ++ [fin])

section system

variable {σ τ : Type} {P : Port σ} {Q : Port τ} {R : σ → List Byte → List Byte → Nat → Prop} {T : τ → List Byte → List Byte → Nat → Prop}
variable {a c nc mc ns ms L M fuel : Nat} {D : List Byte} {fin : Byte} {b : Build} {f : List Byte → List Byte} {reqs : List (List Byte)}

/-- The conditions: the ports and the buffers are large enough for the longest request (`L` bytes) and reply, and requests and replies have no
delimiters in them. -/
structure Sizes (P : Port σ) (Q : Port τ) (R : σ → List Byte → List Byte → Nat → Prop) (T : τ → List Byte → List Byte → Nat → Prop)
    (a c nc mc ns ms L M fuel : Nat) (D : List Byte) (fin : Byte) (f : List Byte → List Byte) (reqs : List (List Byte)) : Prop where
  portP : P.Lossless R a
  portQ : Q.Lossless T c
  takesP : Takes P R a
  takesQ : Takes Q T c
  fuel : a < fuel ∧ c < fuel ∧ mc < fuel ∧ ms < fuel
  fin : fin ∈ D
  requests : ∀ r ∈ reqs, r.length ≤ L ∧ ∀ x ∈ r, x ∉ D
  replies : ∀ r, (f r).length + 1 ≤ M ∧ ∀ x ∈ f r, x ∉ D
  requestFits : L + 1 ≤ mc ∧ L + 1 ≤ c ∧ L + 1 ≤ ns
  replyFits : M < ms ∧ M ≤ a ∧ M ≤ nc

/-- The state of the exchange. -/
structure Sys (R : σ → List Byte → List Byte → Nat → Prop) (T : τ → List Byte → List Byte → Nat → Prop) (nc mc ns ms : Nat) (D : List Byte)
    (fin : Byte) (f : List Byte → List Byte) (reqs : List (List Byte)) (i : Nat) (st : State σ τ) (qc pc ic oc qs ps is os : List Byte)
    (rc rs : Nat) : Prop where
  client : Side R D nc mc st.client qc pc ic oc rc
  server : Side T D ns ms st.server qs ps is os rs
  phase : Phase reqs f fin i st.todo st.waiting st.served (qs ++ is ++ oc ++ pc) (qc ++ ic ++ os ++ ps)
  answers : st.answers = (reqs.take i).map f
  tail : ∀ k, (∀ r ∈ reqs, r.length = k) → (k + 1) ∣ ns → (k + 1) ∣ st.server.input.ring.tail

variable {st : State σ τ} {qc pc ic oc qs ps is os : List Byte} {rc rs i : Nat}

theorem Phase.tokens (hz : Sizes P Q R T a c nc mc ns ms L M fuel D fin f reqs) {todo served : List (List Byte)} {w : Bool} {X Y : List Byte}
    (h : Phase reqs f fin i todo w served X Y) : Token D fin X ∧ Token D fin Y ∧ X.length ≤ L + 1 ∧ Y.length ≤ M := by
  have mem : ∀ {r : List Byte}, reqs[i]? = some r → r ∈ reqs := fun h => List.mem_of_getElem? h
  cases h with
  | idle => exact ⟨.inl rfl, .inl rfl, by simp, by simp⟩
  | asking hr =>
    have := hz.requests _ (mem hr)
    exact ⟨.inr ⟨_, rfl, this.2⟩, .inl rfl, by simpa using this.1, by simp⟩
  | @answering r hr =>
    have := hz.replies r
    exact ⟨.inl rfl, .inr ⟨_, rfl, this.2⟩, by simp, by simpa using this.1⟩

theorem Sys.clientPull (hz : Sizes P Q R T a c nc mc ns ms L M fuel D fin f reqs) (h : Sys R T nc mc ns ms D fin f reqs i st qc pc ic oc qs ps is os rc rs) :
    ∃ st', step P Q b f fin M fuel st .clientPull = .ok st' ∧ Sys R T nc mc ns ms D fin f reqs i st' (qc ++ ic) pc [] oc qs ps is os rc rs := by
  obtain ⟨hX, hY, hXl, hYl⟩ := h.phase.tokens hz
  have h1 : (qc ++ ic).length ≤ M := by simp only [List.length_append] at hYl ⊢; omega
  obtain ⟨k, s', e, h', ht⟩ := h.client.pull hz.portP hz.fuel.1 (Nat.le_trans h1 hz.replyFits.2.2) (fun hn hno => by
    have hM := hz.replyFits
    rw [List.append_assoc (qc ++ ic)] at hY
    rcases hY.part hz.fin with ⟨-, h2⟩ | ⟨-, r, h2, -⟩
    · have hpos := (hz.replies []).1
      rcases h2 with h2 | h2
      · rw [h2] at hn; simp at hn; omega
      · have := List.length_pos_iff.mpr h2
        simp only [List.length_append] at hYl this hn
        omega
    · exact hno fin (by rw [h2]; simp) hz.fin)
  exact ⟨{ st with client := s' }, by simp only [step, e, res_bind_ok, res_pure], ⟨h', h.server, by simpa using h.phase, h.answers, h.tail⟩⟩

theorem Sys.serverPull (hz : Sizes P Q R T a c nc mc ns ms L M fuel D fin f reqs) (h : Sys R T nc mc ns ms D fin f reqs i st qc pc ic oc qs ps is os rc rs) :
    ∃ st', step P Q b f fin M fuel st .serverPull = .ok st' ∧ Sys R T nc mc ns ms D fin f reqs i st' qc pc ic oc (qs ++ is) ps [] os rc rs := by
  obtain ⟨hX, hY, hXl, hYl⟩ := h.phase.tokens hz
  have h1 : (qs ++ is).length ≤ L + 1 := by simp only [List.length_append] at hXl ⊢; omega
  have hL := hz.requestFits
  obtain ⟨k, s', e, h', ht⟩ := h.server.pull hz.portQ hz.fuel.2.1 (Nat.le_trans h1 hL.2.2) (fun hn hno => by
    rw [List.append_assoc (qs ++ is)] at hX
    rcases hX.part hz.fin with ⟨-, h2⟩ | ⟨-, r, h2, -⟩
    · rcases h2 with h2 | h2
      · rw [h2] at hn; simp at hn; omega
      · have := List.length_pos_iff.mpr h2
        simp only [List.length_append] at hXl this hn
        omega
    · exact hno fin (by rw [h2]; simp) hz.fin)
  exact ⟨{ st with server := s' }, by simp only [step, e, res_bind_ok, res_pure], ⟨h.client, h', by simpa using h.phase, h.answers, by simpa [ht] using h.tail⟩⟩

theorem Sys.clientPush (hz : Sizes P Q R T a c nc mc ns ms L M fuel D fin f reqs) (h : Sys R T nc mc ns ms D fin f reqs i st qc pc ic oc qs ps is os rc rs) :
    ∃ st' rc', step P Q b f fin M fuel st .clientPush = .ok st' ∧
      Sys R T nc mc ns ms D fin f reqs i st' qc (pc.drop rc) ic (oc ++ pc.take rc) qs ps is os rc' rs := by
  obtain ⟨k, s', rc', e, h', -⟩ := h.client.push hz.portP hz.fuel.2.2.1
  exact ⟨{ st with client := s' }, rc', by simp only [step, e, res_bind_ok, res_pure], ⟨h', h.server, by simpa using h.phase, h.answers, h.tail⟩⟩

theorem Sys.serverPush (hz : Sizes P Q R T a c nc mc ns ms L M fuel D fin f reqs) (h : Sys R T nc mc ns ms D fin f reqs i st qc pc ic oc qs ps is os rc rs) :
    ∃ st' rs', step P Q b f fin M fuel st .serverPush = .ok st' ∧
      Sys R T nc mc ns ms D fin f reqs i st' qc pc ic oc qs (ps.drop rs) is (os ++ ps.take rs) rc rs' := by
  obtain ⟨k, s', rs', e, h', hin⟩ := h.server.push hz.portQ hz.fuel.2.2.2
  exact ⟨{ st with server := s' }, rs', by simp only [step, e, res_bind_ok, res_pure], ⟨h.client, h', by simpa using h.phase, h.answers, by simpa [hin] using h.tail⟩⟩

theorem Sys.forward (hz : Sizes P Q R T a c nc mc ns ms L M fuel D fin f reqs) (h : Sys R T nc mc ns ms D fin f reqs i st qc pc ic oc qs ps is os rc rs)
    {k : Nat} {gone rest : List Byte} {p : σ} {rc' : Nat} (e : P.extract st.client.stream k = .ok (gone, p)) (ho : oc = gone ++ rest) (hp : R p ic rest rc') :
    ∃ st', step P Q b f fin M fuel st (.forward k) = .ok st' ∧ Sys R T nc mc ns ms D fin f reqs i st' qc pc ic rest qs ps (is ++ gone) os rc' rs := by
  obtain ⟨-, -, hXl, -⟩ := h.phase.tokens hz
  have hL := hz.requestFits
  subst ho
  obtain ⟨j, q, e', hq⟩ := hz.takesQ gone h.server.port (by simp only [List.length_append] at hXl; omega)
  exact ⟨{ st with client := { st.client with stream := p }, server := { st.server with stream := q } }, by simp only [step, e, e', res_bind_ok, res_pure], ⟨h.client.stream hp, h.server.stream hq, by simpa using h.phase, h.answers, h.tail⟩⟩

theorem Sys.backward (hz : Sizes P Q R T a c nc mc ns ms L M fuel D fin f reqs) (h : Sys R T nc mc ns ms D fin f reqs i st qc pc ic oc qs ps is os rc rs)
    {k : Nat} {gone rest : List Byte} {q : τ} {rs' : Nat} (e : Q.extract st.server.stream k = .ok (gone, q)) (ho : os = gone ++ rest) (hq : T q is rest rs') :
    ∃ st', step P Q b f fin M fuel st (.backward k) = .ok st' ∧ Sys R T nc mc ns ms D fin f reqs i st' qc pc (ic ++ gone) oc qs ps is rest rc rs' := by
  obtain ⟨-, -, -, hYl⟩ := h.phase.tokens hz
  have hL := hz.replyFits
  subst ho
  obtain ⟨j, p, e', hp⟩ := hz.takesP gone h.client.port (by simp only [List.length_append] at hYl; omega)
  exact ⟨{ st with client := { st.client with stream := p }, server := { st.server with stream := q } }, by simp only [step, e, e', res_bind_ok, res_pure], ⟨h.client.stream hp, h.server.stream hq, by simpa using h.phase, h.answers, h.tail⟩⟩

/-- The client's function: it sends a request, or takes a reply, or there is nothing to do. -/
theorem Sys.clientTurn (hz : Sizes P Q R T a c nc mc ns ms L M fuel D fin f reqs) (h : Sys R T nc mc ns ms D fin f reqs i st qc pc ic oc qs ps is os rc rs)
    {dst : List Byte} {mx : Nat} (hfit : nc < mx ∧ mx ≤ dst.length) :
    (∃ st' r, reqs[i]? = some r ∧ st.waiting = false ∧ step P Q b f fin M fuel st (.clientTurn dst mx) = .ok st' ∧ st'.waiting = true ∧
      st'.served = reqs.take i ∧ Sys R T nc mc ns ms D fin f reqs i st' [] (r ++ [fin]) [] [] [] [] [] [] rc rs) ∨
    (∃ st', st.waiting = true ∧ st.served = reqs.take (i + 1) ∧ i < reqs.length ∧ ps = [] ∧ step P Q b f fin M fuel st (.clientTurn dst mx) = .ok st' ∧
      st'.waiting = false ∧ Sys R T nc mc ns ms D fin f reqs (i + 1) st' [] [] [] [] [] [] [] [] rc rs) ∨
    (step P Q b f fin M fuel st (.clientTurn dst mx) = .ok st ∧ (st.waiting = false → reqs.length ≤ i) ∧
      (st.waiting = true → qc ++ ic ++ os ++ ps = [] ∨ ic ++ os ++ ps ≠ [])) := by
  have nil4 : ∀ {x y z w : List Byte}, [] = x ++ y ++ z ++ w → x = [] ∧ y = [] ∧ z = [] ∧ w = [] := by
    intro x y z w h
    simpa [and_assoc] using h.symm
  have hphase := h.phase
  obtain ⟨-, hY, -, hYl⟩ := hphase.tokens hz
  obtain ⟨cl, sv, todo, waiting, answers, served⟩ := st
  obtain ⟨hcl, hsv, -, hans, htail⟩ := h
  simp only at hphase hcl hsv hans htail hY hYl ⊢
  generalize hXe : qs ++ is ++ oc ++ pc = X at hphase
  generalize hYe : qc ++ ic ++ os ++ ps = Y at hphase hY hYl
  cases hphase with
  | idle hi =>
    obtain ⟨rfl, rfl, rfl, rfl⟩ := nil4 hXe.symm
    obtain ⟨rfl, rfl, rfl, rfl⟩ := nil4 hYe.symm
    by_cases hlt : i < reqs.length
    · obtain ⟨r, hr⟩ : ∃ r, reqs[i]? = some r := ⟨_, List.getElem?_eq_getElem hlt⟩
      have hd : reqs.drop i = r :: reqs.drop (i + 1) := by
        rw [List.drop_eq_getElem_cons hlt, ← (List.getElem?_eq_some_iff.mp hr).2]
      have hrl := (hz.requests r (List.mem_of_getElem? hr)).1
      have hL := hz.requestFits
      obtain ⟨k, s', e, h', -⟩ := hcl.write (bytes := r ++ [fin]) (by simp; omega)
      have hfree : cl.output.ring.freeSpace = mc := by simpa using hcl.inv.output.free
      refine .inl ⟨⟨s', sv, reqs.drop (i + 1), true, answers, reqs.take i⟩, r, hr, rfl, ?_, rfl, rfl, ⟨by simpa using h', hsv, ?_, hans, htail⟩⟩
      · have hgt : r.length < mc := by omega
        simp [step, Exchange.clientTurn, hd, hfree, hgt, e]
      · simpa using Phase.asking hr
    · refine .inr (.inr ⟨?_, fun _ => by omega, by simp⟩)
      have hd : reqs.drop i = [] := List.drop_eq_nil_of_le (by omega)
      simp [step, Exchange.clientTurn, hd]
  | @asking r hr =>
    obtain ⟨rfl, rfl, rfl, rfl⟩ := nil4 hYe.symm
    refine .inr (.inr ⟨?_, by simp, fun _ => .inl rfl⟩)
    have := hcl.none (by simp [Lines.NoLine])
    simp [step, Exchange.clientTurn, this]
  | @answering r hr =>
    obtain ⟨rfl, rfl, rfl, rfl⟩ := nil4 hXe.symm
    have hlt : i < reqs.length := by
      rw [List.getElem?_eq_some_iff] at hr
      exact hr.1
    rw [← hYe, List.append_assoc, List.append_assoc] at hY
    rcases hY.part hz.fin with ⟨hno, h2⟩ | ⟨h2, r', hq, -, hf⟩
    · refine .inr (.inr ⟨?_, by simp, fun _ => .inr ?_⟩)
      · have := hcl.none hno
        simp [step, Exchange.clientTurn, this]
      · rcases h2 with rfl | h2
        · intro hc
          rw [List.append_assoc, List.append_assoc, ← List.append_assoc ic, hc] at hYe
          simp at hYe
        · rwa [List.append_assoc]
    · obtain ⟨rfl, rfl, rfl⟩ : ic = [] ∧ os = [] ∧ ps = [] := by simpa using h2
      simp only [List.append_nil] at hYe
      obtain ⟨s', dst', e1, e2, e3, h'⟩ := hcl.get hf hfit.1 hfit.2
      obtain rfl : r' = f r := (List.append_inj' (hq.symm.trans hYe) rfl).1
      refine .inr (.inl ⟨⟨s', sv, reqs.drop (i + 1), false, answers ++ [f r], reqs.take (i + 1)⟩, rfl, rfl, hlt, rfl, ?_, rfl, ⟨h', hsv, ?_, ?_, htail⟩⟩)
      · simp [step, Exchange.clientTurn, e1, e2, e3]
      · simpa using Phase.idle (by omega)
      · simp only [hans]
        rw [List.take_add_one, hr]
        simp

/-- The server's function: it serves the request, or there is nothing to do. -/
theorem Sys.serverTurn (hz : Sizes P Q R T a c nc mc ns ms L M fuel D fin f reqs) (h : Sys R T nc mc ns ms D fin f reqs i st qc pc ic oc qs ps is os rc rs)
    {how : How} (hfit : Fit nc ns reqs (.serverTurn how)) :
    (∃ st' r, reqs[i]? = some r ∧ pc = [] ∧ st.waiting = true ∧ st.served = reqs.take i ∧ step P Q b f fin M fuel st (.serverTurn how) = .ok st' ∧
      st'.waiting = true ∧ st'.served = reqs.take (i + 1) ∧ Sys R T nc mc ns ms D fin f reqs i st' [] [] [] [] [] (f r ++ [fin]) [] [] rc rs) ∨
    (step P Q b f fin M fuel st (.serverTurn how) = .ok st ∧
      (qs ++ is ++ oc ++ pc = [] ∨ is ++ oc ++ pc ≠ [])) := by
  have nil4 : ∀ {x y z w : List Byte}, [] = x ++ y ++ z ++ w → x = [] ∧ y = [] ∧ z = [] ∧ w = [] := by
    intro x y z w h
    simpa [and_assoc] using h.symm
  have hphase := h.phase
  obtain ⟨hX, -, hXl, -⟩ := hphase.tokens hz
  obtain ⟨cl, sv, todo, waiting, answers, served⟩ := st
  obtain ⟨hcl, hsv, -, hans, htail⟩ := h
  simp only at hphase hcl hsv hans htail hX hXl ⊢
  have none : Lines.NoLine D qs → step P Q b f fin M fuel ⟨cl, sv, todo, waiting, answers, served⟩ (.serverTurn how) =
      .ok ⟨cl, sv, todo, waiting, answers, served⟩ := by
    intro hno
    have := serve_idle (b := b) (f := fun l => f l ++ [fin]) (M := M) hsv.inv ⟨[], served, [], [], 0⟩ how (.inr (hsv.delims ▸ hno))
    simp [step, this]
  generalize hXe : qs ++ is ++ oc ++ pc = X at hphase hX hXl
  generalize hYe : qc ++ ic ++ os ++ ps = Y at hphase
  cases hphase with
  | idle hi =>
    obtain ⟨rfl, rfl, rfl, rfl⟩ := nil4 hXe.symm
    exact .inr ⟨none (by simp [Lines.NoLine]), .inl rfl⟩
  | @answering r hr =>
    obtain ⟨rfl, rfl, rfl, rfl⟩ := nil4 hXe.symm
    exact .inr ⟨none (by simp [Lines.NoLine]), .inl rfl⟩
  | @asking r hr =>
    obtain ⟨rfl, rfl, rfl, rfl⟩ := nil4 hYe.symm
    have hlt : i < reqs.length := by
      rw [List.getElem?_eq_some_iff] at hr
      exact hr.1
    have hmem := List.mem_of_getElem? hr
    rw [← hXe, List.append_assoc, List.append_assoc] at hX
    rcases hX.part hz.fin with ⟨hno, h2⟩ | ⟨h2, r', hq, -, hf⟩
    · refine .inr ⟨none hno, .inr ?_⟩
      rcases h2 with rfl | h2
      · intro hc
        rw [List.append_assoc, List.append_assoc, ← List.append_assoc is, hc] at hXe
        simp at hXe
      · rwa [List.append_assoc]
    · obtain ⟨rfl, rfl, rfl⟩ : is = [] ∧ oc = [] ∧ pc = [] := by simpa using h2
      simp only [List.append_nil] at hXe
      obtain rfl : r' = r := (List.append_inj' (hq.symm.trans hXe) rfl).1
      have hM := hz.replyFits
      have hlen : r'.length + 1 ≤ ns := by
        have h1 := hz.requestFits
        have h2 := (hz.requests _ hmem).1
        omega
      have htl : sv.input.ring.tail < ns := hsv.inv.input.1.tailLt
      obtain ⟨s', e, hi, hst, hd, ho, ht⟩ := serve_first (b := b) (f := fun l => f l ++ [fin]) (M := M) hsv.inv
        (fun l => by simpa using (hz.replies l).1) ⟨[], reqs.take i, [], [], 0⟩ how (by
          intro dst mx he
          cases he
          exact hfit) (by simpa using hM.1) (hsv.delims ▸ hf) (by
          rintro rfl
          obtain ⟨k, hk, hdvd⟩ := hfit
          obtain ⟨x, hx⟩ := htail k hk hdvd
          obtain ⟨y, hy⟩ := hdvd
          have hxy : x < y := by
            rw [hx, hy] at htl
            exact Nat.lt_of_mul_lt_mul_left htl
          have h1 := hk _ hmem
          have h2 : (k + 1) * (x + 1) ≤ (k + 1) * y := Nat.mul_le_mul_left _ hxy
          rw [Nat.mul_add] at h2
          omega)
      refine .inl ⟨⟨cl, s', reqs.drop (i + 1), true, answers, reqs.take (i + 1)⟩, r', hr, rfl, rfl, rfl, ?_, rfl, rfl,
        ⟨hcl, ⟨by simpa using hi, by rw [hst]; exact hsv.port, hd.trans hsv.delims, ho⟩, by simpa using Phase.answering hr, hans, ?_⟩⟩
      · simp only [step, e, res_bind_ok, res_pure]
        rw [List.take_add_one, hr]
        simp
      · intro k hk hdvd
        simp only [ht]
        have h1 := hk _ hmem
        have h2 := htail k hk hdvd
        rw [h1, Nat.add_assoc]
        exact (Nat.dvd_mod_iff hdvd).mpr (Nat.dvd_add h2 (Nat.dvd_refl _))

theorem step_ok (hz : Sizes P Q R T a c nc mc ns ms L M fuel D fin f reqs) (h : Sys R T nc mc ns ms D fin f reqs i st qc pc ic oc qs ps is os rc rs)
    (op : Op) (hfit : Fit nc ns reqs op) :
    ∃ st' i' qc' pc' ic' oc' qs' ps' is' os' rc' rs', step P Q b f fin M fuel st op = .ok st' ∧
      Sys R T nc mc ns ms D fin f reqs i' st' qc' pc' ic' oc' qs' ps' is' os' rc' rs' := by
  cases op with
  | forward k =>
    obtain ⟨gone, rest, p, rc', e, ho, hp⟩ := hz.portP.extract k h.client.port
    obtain ⟨st', e', h'⟩ := h.forward (b := b) hz e ho hp
    exact ⟨_, _, _, _, _, _, _, _, _, _, _, _, e', h'⟩
  | backward k =>
    obtain ⟨gone, rest, p, rc', e, ho, hp⟩ := hz.portQ.extract k h.server.port
    obtain ⟨st', e', h'⟩ := h.backward (b := b) hz e ho hp
    exact ⟨_, _, _, _, _, _, _, _, _, _, _, _, e', h'⟩
  | clientPull => obtain ⟨st', e', h'⟩ := h.clientPull (b := b) hz; exact ⟨_, _, _, _, _, _, _, _, _, _, _, _, e', h'⟩
  | clientPush => obtain ⟨st', _, e', h'⟩ := h.clientPush (b := b) hz; exact ⟨_, _, _, _, _, _, _, _, _, _, _, _, e', h'⟩
  | serverPull => obtain ⟨st', e', h'⟩ := h.serverPull (b := b) hz; exact ⟨_, _, _, _, _, _, _, _, _, _, _, _, e', h'⟩
  | serverPush => obtain ⟨st', _, e', h'⟩ := h.serverPush (b := b) hz; exact ⟨_, _, _, _, _, _, _, _, _, _, _, _, e', h'⟩
  | clientTurn dst mx =>
    rcases h.clientTurn (b := b) hz hfit with ⟨st', r, -, -, e', -, -, h'⟩ | ⟨st', -, -, -, -, e', -, h'⟩ | ⟨e', -⟩
    · exact ⟨_, _, _, _, _, _, _, _, _, _, _, _, e', h'⟩
    · exact ⟨_, _, _, _, _, _, _, _, _, _, _, _, e', h'⟩
    · exact ⟨_, _, _, _, _, _, _, _, _, _, _, _, e', h⟩
  | serverTurn how =>
    rcases h.serverTurn (b := b) hz hfit with ⟨st', r, -, -, -, -, e', -, -, h'⟩ | ⟨e', -⟩
    · exact ⟨_, _, _, _, _, _, _, _, _, _, _, _, e', h'⟩
    · exact ⟨_, _, _, _, _, _, _, _, _, _, _, _, e', h⟩

theorem run_ok (hz : Sizes P Q R T a c nc mc ns ms L M fuel D fin f reqs) : ∀ (ops : List Op) {st : State σ τ} {i : Nat}
    {qc pc ic oc qs ps is os : List Byte} {rc rs : Nat}, Sys R T nc mc ns ms D fin f reqs i st qc pc ic oc qs ps is os rc rs →
    (∀ op ∈ ops, Fit nc ns reqs op) → ∃ st' i' qc' pc' ic' oc' qs' ps' is' os' rc' rs', run P Q b f fin M fuel st ops = .ok st' ∧
      Sys R T nc mc ns ms D fin f reqs i' st' qc' pc' ic' oc' qs' ps' is' os' rc' rs'
  | [], st, _, _, _, _, _, _, _, _, _, _, _, h, _ => ⟨st, _, _, _, _, _, _, _, _, _, _, _, rfl, h⟩
  | op :: ops, _, _, _, _, _, _, _, _, _, _, _, _, h, hf => by
    obtain ⟨_, _, _, _, _, _, _, _, _, _, _, _, e, h'⟩ := step_ok (b := b) hz h op (hf op (by simp))
    obtain ⟨_, _, _, _, _, _, _, _, _, _, _, _, e', h''⟩ := run_ok hz ops h' (fun o ho => hf o (by simp [ho]))
    exact ⟨_, _, _, _, _, _, _, _, _, _, _, _, by simp only [run, e, res_bind_ok, e'], h''⟩

theorem run_append : ∀ (ops ops' : List Op) (st : State σ τ), run P Q b f fin M fuel st (ops ++ ops') =
    (do run P Q b f fin M fuel (← run P Q b f fin M fuel st ops) ops')
  | [], ops', st => rfl
  | op :: ops, ops', st => by
    simp only [List.cons_append, run]
    cases step P Q b f fin M fuel st op with
    | error e => rfl
    | ok x => simpa using run_append ops ops' x

/-- A round after the client's function. -/
theorem Sys.rest (hz : Sizes P Q R T a c nc mc ns ms L M fuel D fin f reqs) {k l : Nat} (hk : Drains P R k) (hl : Drains Q T l) {how : How}
    (hfit : Fit nc ns reqs (.serverTurn how)) (h : Sys R T nc mc ns ms D fin f reqs i st qc pc ic oc qs ps is os rc rs) :
    ∃ st' qc' pc' qs' ps' rc' rs', run P Q b f fin M fuel st [.clientPush, .forward k, .serverPull, .serverTurn how, .serverPush, .backward l, .clientPull] = .ok st' ∧
      Sys R T nc mc ns ms D fin f reqs i st' qc' pc' [] [] qs' ps' [] [] rc' rs' ∧ 0 < rc' ∧ 0 < rs' ∧
      ((st.waiting = true ∧ st.served = reqs.take i ∧ st'.waiting = true ∧ qs' ++ pc' = [] ∧ ps'.length ≤ M) ∨
       (st'.waiting = st.waiting ∧ pc' = pc.drop rc ∧ ps' = ps.drop rs ∧ qs' ++ pc' = qs ++ is ++ oc ++ pc ∧ (qs ++ is ++ oc ++ pc = [] ∨ pc' ≠ []))) := by
  obtain ⟨st₁, rc₁, e₁, h₁⟩ := h.clientPush (b := b) hz
  obtain ⟨p, rc₂, x₂, hp, hrc⟩ := hk _ _ _ _ h₁.client.port
  obtain ⟨st₂, e₂, h₂⟩ := h₁.forward (b := b) hz x₂ (List.append_nil _).symm hp
  obtain ⟨st₃, e₃, h₃⟩ := h₂.serverPull (b := b) hz
  have hw₃ : st₃.waiting = st.waiting ∧ st₃.served = st.served := by
    simp only [step] at e₁ e₂ e₃
    obtain ⟨_, -, e₁⟩ := OpenTransaction.bind_ok.mp e₁
    obtain ⟨_, -, e₂⟩ := OpenTransaction.bind_ok.mp e₂
    obtain ⟨_, -, e₂⟩ := OpenTransaction.bind_ok.mp e₂
    obtain ⟨_, -, e₃⟩ := OpenTransaction.bind_ok.mp e₃
    cases e₁; cases e₂; cases e₃
    exact ⟨rfl, rfl⟩
  have finish : ∀ {st₄ : State σ τ} {qc pc ic oc qs ps os : List Byte} {rs : Nat}, Sys R T nc mc ns ms D fin f reqs i st₄ qc pc ic oc qs ps [] os rc₂ rs →
      ∃ st' rs', run P Q b f fin M fuel st₄ [.serverPush, .backward l, .clientPull] = .ok st' ∧ 0 < rs' ∧ st'.waiting = st₄.waiting ∧
        Sys R T nc mc ns ms D fin f reqs i st' (qc ++ (ic ++ (os ++ ps.take rs))) pc [] oc qs (ps.drop rs) [] [] rc₂ rs' := by
    intro st₄ qc pc ic oc qs ps os rs h₄
    obtain ⟨st₅, rs₅, e₅, h₅⟩ := h₄.serverPush (b := b) hz
    obtain ⟨q, rs₆, x₆, hq, hrs⟩ := hl _ _ _ _ h₅.server.port
    obtain ⟨st₆, e₆, h₆⟩ := h₅.backward (b := b) hz x₆ (List.append_nil _).symm hq
    obtain ⟨st₇, e₇, h₇⟩ := h₆.clientPull (b := b) hz
    refine ⟨st₇, rs₆, by simp only [run, e₅, e₆, e₇, res_bind_ok], hrs, ?_, h₇⟩
    simp only [step] at e₅ e₆ e₇
    obtain ⟨_, -, e₅⟩ := OpenTransaction.bind_ok.mp e₅
    obtain ⟨_, -, e₆⟩ := OpenTransaction.bind_ok.mp e₆
    obtain ⟨_, -, e₆⟩ := OpenTransaction.bind_ok.mp e₆
    obtain ⟨_, -, e₇⟩ := OpenTransaction.bind_ok.mp e₇
    cases e₅; cases e₆; cases e₇
    rfl
  have hX : (qs ++ (is ++ (oc ++ pc.take rc))) ++ [] ++ [] ++ pc.drop rc = qs ++ is ++ oc ++ pc := by simp
  rcases h₃.serverTurn (b := b) hz hfit with ⟨st₄, r, hr, hpc, hw, hs, e₄, hw', hs', h₄⟩ | ⟨e₄, hor⟩
  · obtain ⟨st', rs', e', hrs, hw'', h'⟩ := finish h₄
    refine ⟨st', _, _, _, _, _, _, ?_, h', hrc, hrs, .inl ⟨by rw [← hw₃.1, hw], by rw [← hw₃.2, hs], hw''.trans hw', rfl, ?_⟩⟩
    · simp only [run, e₁, e₂, e₃, e₄, res_bind_ok] at e' ⊢
      exact e'
    · have := (hz.replies r).1
      simp only [List.length_drop, List.length_append, List.length_singleton]
      omega
  · obtain ⟨st', rs', e', hrs, hw'', h'⟩ := finish h₃
    refine ⟨st', _, _, _, _, _, _, ?_, h', hrc, hrs, .inr ⟨hw''.trans hw₃.1, rfl, rfl, by simp, ?_⟩⟩
    · simp only [run, e₁, e₂, e₃, e₄, res_bind_ok] at e' ⊢
      exact e'
    · rw [hX] at hor
      simpa using hor

/-- What is left to do, in bytes: the requests not sent yet, and the rest of the present one and its reply. -/
def work (L M : Nat) (reqs : List (List Byte)) (i : Nat) (waiting : Bool) (pc qs ps : List Byte) : Nat :=
  if waiting then (reqs.length - (i + 1)) * (L + M + 4) + if (qs ++ pc).isEmpty then 1 + ps.length else M + 2 + pc.length
  else (reqs.length - i) * (L + M + 4)

theorem Phase.cases' {todo served : List (List Byte)} {w : Bool} {X Y : List Byte} (h : Phase reqs f fin i todo w served X Y) :
    (w = false ∧ X = [] ∧ Y = [] ∧ i ≤ reqs.length) ∨ (w = true ∧ X ≠ [] ∧ Y = [] ∧ i < reqs.length ∧ served = reqs.take i) ∨
      (w = true ∧ X = [] ∧ Y ≠ [] ∧ i < reqs.length ∧ served = reqs.take (i + 1)) := by
  cases h with
  | idle hi => exact .inl ⟨rfl, rfl, rfl, hi⟩
  | asking hr => exact .inr (.inl ⟨rfl, by simp, rfl, (List.getElem?_eq_some_iff.mp hr).1, rfl⟩)
  | answering hr => exact .inr (.inr ⟨rfl, rfl, by simp, (List.getElem?_eq_some_iff.mp hr).1, rfl⟩)

theorem Sys.round (hz : Sizes P Q R T a c nc mc ns ms L M fuel D fin f reqs) {k l : Nat} (hk : Drains P R k) (hl : Drains Q T l) {how : How}
    {dst : List Byte} {mx : Nat} (hfit : Fit nc ns reqs (.serverTurn how)) (hfit' : nc < mx ∧ mx ≤ dst.length)
    (h : Sys R T nc mc ns ms D fin f reqs i st qc pc ic oc qs ps is os rc rs) :
    ∃ st' i' qc' pc' qs' ps' rc' rs', run P Q b f fin M fuel st (round dst mx how k l) = .ok st' ∧
      Sys R T nc mc ns ms D fin f reqs i' st' qc' pc' [] [] qs' ps' [] [] rc' rs' ∧ 0 < rc' ∧ 0 < rs' ∧
      (ic = [] → oc = [] → is = [] → os = [] → 0 < rc → 0 < rs →
        work L M reqs i' st'.waiting pc' qs' ps' ≤ work L M reqs i st.waiting pc qs ps - 1) := by
  have one : ∀ n : Nat, i + 1 ≤ n → (n - i) * (L + M + 4) = (n - (i + 1)) * (L + M + 4) + (L + M + 4) := by
    intro n hn
    rw [show n - i = (n - (i + 1)) + 1 by omega, Nat.succ_mul]
  have drop_lt : ∀ {x : List Byte} {r : Nat}, x ≠ [] → 0 < r → (x.drop r).length + 1 ≤ x.length := by
    intro x r hx hr
    have := List.length_pos_iff.mpr hx
    rw [List.length_drop]
    omega
  rcases h.clientTurn (b := b) hz hfit' with ⟨st₁, r, hr, hw, e₁, hw₁, hs₁, h₁⟩ | ⟨st₁, hw, hs, hi, hps, e₁, hw₁, h₁⟩ | ⟨e₁, hn1, hn2⟩
  · obtain ⟨st', qc', pc', qs', ps', rc', rs', e', h', hrc, hrs, hor⟩ := h₁.rest (b := b) hz hk hl hfit
    refine ⟨st', i, qc', pc', qs', ps', rc', rs', by simp only [Exchange.round, run, e₁, res_bind_ok] at e' ⊢; exact e', h', hrc, hrs, fun _ _ _ _ _ _ => ?_⟩
    have hlt := (List.getElem?_eq_some_iff.mp hr).1
    have hrl := (hz.requests r (List.mem_of_getElem? hr)).1
    rcases hor with ⟨-, -, hw', hX, hM⟩ | ⟨hw', hpc, -, hX, hne⟩
    · simp only [work, hw, hw', hX, if_true, List.isEmpty_nil, Bool.false_eq_true, if_false]
      rw [one _ hlt]
      omega
    · have : pc'.length ≤ L + 1 := by rw [hpc, List.length_drop]; simp; omega
      simp only [work, hw, hw', hw₁, hX, if_true, Bool.false_eq_true, if_false]
      rw [one _ hlt]
      simp
      omega
  · obtain ⟨st', qc', pc', qs', ps', rc', rs', e', h', hrc, hrs, hor⟩ := h₁.rest (b := b) hz hk hl hfit
    refine ⟨st', i + 1, qc', pc', qs', ps', rc', rs', by simp only [Exchange.round, run, e₁, res_bind_ok] at e' ⊢; exact e', h', hrc, hrs, fun hic hoc his hos _ _ => ?_⟩
    rcases hor with ⟨hw', -⟩ | ⟨hw', -⟩
    · rw [hw₁] at hw'; cases hw'
    · subst hic hoc his hos
      have hX : qs ++ pc = [] := by
        rcases h.phase.cases' with ⟨h1, -⟩ | ⟨-, -, -, -, h2⟩ | ⟨-, h2, -⟩
        · rw [hw] at h1; cases h1
        · rw [hs] at h2
          have := congrArg List.length h2
          simp at this
          omega
        · simpa using h2
      simp only [work, hw, hw', hw₁, hX, hps, if_true, Bool.false_eq_true, if_false, List.isEmpty_nil, List.length_nil]
      omega
  · obtain ⟨st', qc', pc', qs', ps', rc', rs', e', h', hrc, hrs, hor⟩ := h.rest (b := b) hz hk hl hfit
    refine ⟨st', i, qc', pc', qs', ps', rc', rs', by simp only [Exchange.round, run, e₁, res_bind_ok] at e' ⊢; exact e', h', hrc, hrs, fun hic hoc his hos hrc0 hrs0 => ?_⟩
    subst hic hoc his hos
    simp only [List.append_nil] at hor hn2
    rcases hor with ⟨hw, hs, hw', hX', hM⟩ | ⟨hw', hpc, hps, hX, hne⟩
    · have hX : qs ++ pc ≠ [] := by
        rcases h.phase.cases' with ⟨h1, -⟩ | ⟨-, h2, -⟩ | ⟨-, -, -, h3, h2⟩
        · rw [hw] at h1; cases h1
        · simpa using h2
        · rw [hs] at h2
          have := congrArg List.length h2
          simp at this
          omega
      have hXe : (qs ++ pc).isEmpty = false := by simpa using hX
      simp only [work, hw, hw', hX', hXe, if_true, Bool.false_eq_true, if_false, List.isEmpty_nil]
      omega
    · cases hw : st.waiting with
      | false =>
        have := hn1 hw
        simp only [work, hw, hw', Bool.false_eq_true, if_false, show reqs.length - i = 0 by omega, Nat.zero_mul]
        omega
      | true =>
        simp only [work, hw, hw', hX, if_true]
        by_cases hXe : qs ++ pc = []
        · simp only [hXe, List.isEmpty_nil, if_true]
          have hY : qc ++ ps ≠ [] := by
            rcases h.phase.cases' with ⟨h1, -⟩ | ⟨-, h2, -⟩ | ⟨-, -, h2, -⟩
            · rw [hw] at h1; cases h1
            · simp [hXe] at h2
            · simpa using h2
          have hpne : ps ≠ [] := by
            rcases hn2 hw with h2 | h2
            · exact absurd h2 hY
            · simpa using h2
          have := drop_lt hpne hrs0
          rw [← hps] at this
          omega
        · have hXe' : (qs ++ pc).isEmpty = false := by simpa using hXe
          simp only [hXe', Bool.false_eq_true, if_false]
          have h1 : pc' ≠ [] := by
            rcases hne with h2 | h2
            · exact absurd h2 hXe
            · exact h2
          have h2 : pc ≠ [] := by
            rintro rfl
            rw [hpc] at h1
            simp at h1
          have := drop_lt h2 hrc0
          rw [← hpc] at this
          omega

/-- `N` rounds from a state in which the wires are empty. -/
theorem Sys.rounds (hz : Sizes P Q R T a c nc mc ns ms L M fuel D fin f reqs) {k l : Nat} (hk : Drains P R k) (hl : Drains Q T l) {how : How}
    {dst : List Byte} {mx : Nat} (hfit : Fit nc ns reqs (.serverTurn how)) (hfit' : nc < mx ∧ mx ≤ dst.length) : ∀ (N : Nat) {st : State σ τ} {i : Nat}
    {qc pc qs ps : List Byte} {rc rs : Nat}, Sys R T nc mc ns ms D fin f reqs i st qc pc [] [] qs ps [] [] rc rs → 0 < rc → 0 < rs →
    ∃ st' i' qc' pc' qs' ps' rc' rs', run P Q b f fin M fuel st (List.replicate N (Exchange.round dst mx how k l)).flatten = .ok st' ∧
      Sys R T nc mc ns ms D fin f reqs i' st' qc' pc' [] [] qs' ps' [] [] rc' rs' ∧
      work L M reqs i' st'.waiting pc' qs' ps' ≤ work L M reqs i st.waiting pc qs ps - N
  | 0, st, i, qc, pc, qs, ps, rc, rs, h, _, _ => ⟨st, i, qc, pc, qs, ps, rc, rs, rfl, h, by omega⟩
  | N + 1, st, i, qc, pc, qs, ps, rc, rs, h, h1, h2 => by
    obtain ⟨st₁, i₁, qc₁, pc₁, qs₁, ps₁, rc₁, rs₁, e₁, hs₁, hrc, hrs, hw⟩ := h.round (b := b) hz hk hl hfit hfit'
    obtain ⟨st₂, i₂, qc₂, pc₂, qs₂, ps₂, rc₂, rs₂, e₂, hs₂, hw₂⟩ := Sys.rounds hz hk hl hfit hfit' N hs₁ hrc hrs
    refine ⟨st₂, i₂, qc₂, pc₂, qs₂, ps₂, rc₂, rs₂, ?_, hs₂, ?_⟩
    · rw [List.replicate_succ, List.flatten_cons, run_append, e₁, res_bind_ok, e₂]
    · have := hw rfl rfl rfl rfl h1 h2
      omega

theorem fresh_side {σ : Type} {R : σ → List Byte → List Byte → Nat → Prop} {n m : Nat} (bld : Build) (hn : 0 < n) (hm : 0 < m) (D : List Byte) {st : σ}
    {room : Nat} (hR : R st [] [] room) :
    ∃ s, BufStream.create bld st n m D = .ok s ∧ Side R D n m s [] [] [] [] room ∧ s.input.ring.tail = 0 := by
  obtain ⟨s, e, h⟩ := fresh_served bld hn hm D (fun l => l) hR
  obtain ⟨ends, h1, -, -, h2⟩ := h.input
  have : ends = [] := by simpa using h1
  subst this
  exact ⟨s, e, ⟨h.inv, h.port, h.delims, h.fine⟩, by simpa [Lines.bytes] using h2⟩

theorem Phase.result {todo served : List (List Byte)} {w : Bool} {X Y : List Byte} (h : Phase reqs f fin i todo w served X Y) :
    (served = reqs.take i ∨ (w = true ∧ served = reqs.take (i + 1))) ∧ todo = reqs.drop (if w then i + 1 else i) := by
  cases h with
  | idle => exact ⟨.inl rfl, rfl⟩
  | asking => exact ⟨.inl rfl, rfl⟩
  | answering => exact ⟨.inr ⟨rfl, rfl⟩, rfl⟩

theorem start (hz : Sizes P Q R T a c nc mc ns ms L M fuel D fin f reqs) {x : σ} {y : τ} {rc rs : Nat} (hx : R x [] [] rc) (hy : T y [] [] rs)
    (bld : Build) : ∃ cl sv, BufStream.create bld x nc mc D = .ok cl ∧ BufStream.create bld y ns ms D = .ok sv ∧
      Sys R T nc mc ns ms D fin f reqs 0 ⟨cl, sv, reqs, false, [], []⟩ [] [] [] [] [] [] [] [] rc rs := by
  have h1 := hz.requestFits
  have h2 := hz.replyFits
  have h3 := (hz.replies []).1
  obtain ⟨cl, ec, hc, -⟩ := fresh_side (n := nc) (m := mc) bld (by omega) (by omega) D hx
  obtain ⟨sv, es, hs, ht⟩ := fresh_side (n := ns) (m := ms) bld (by omega) (by omega) D hy
  exact ⟨cl, sv, ec, es, ⟨hc, hs, Phase.idle (i := 0) (by omega), rfl, fun k _ _ => by simp [ht]⟩⟩

end system

end Spine.Exchange

namespace Spine

open Exchange Server

variable {σ τ : Type} {P : Port σ} {Q : Port τ} {R : σ → List Byte → List Byte → Nat → Prop} {T : τ → List Byte → List Byte → Nat → Prop}
variable {a c nc mc ns ms L M fuel : Nat} {D : List Byte} {fin : Byte} {f : List Byte → List Byte} {reqs : List (List Byte)}

/-- **C161**, nothing goes wrong: whatever the order in which the applications call their functions and the wires carry bytes, the client has at any time got the
replies to the first `i` requests, in order, and nothing else; the server has answered these requests, and perhaps the next one, each once. -/
theorem C161_exchange (hz : Sizes P Q R T a c nc mc ns ms L M fuel D fin f reqs) {x : σ} {y : τ} {rc rs : Nat} (hx : R x [] [] rc) (hy : T y [] [] rs)
    (bld : Build) (ops : List Exchange.Op) (hf : ∀ op ∈ ops, Fit nc ns reqs op) :
    ∃ cl sv st, BufStream.create bld x nc mc D = .ok cl ∧ BufStream.create bld y ns ms D = .ok sv ∧
      Exchange.run P Q bld f fin M fuel ⟨cl, sv, reqs, false, [], []⟩ ops = .ok st ∧
      ∃ i ≤ reqs.length, st.answers = (reqs.take i).map f ∧ (st.served = reqs.take i ∨ (st.waiting = true ∧ st.served = reqs.take (i + 1))) ∧
        st.todo = reqs.drop (if st.waiting then i + 1 else i) := by
  obtain ⟨cl, sv, ec, es, h⟩ := start hz hx hy bld
  obtain ⟨st, i, _, _, _, _, _, _, _, _, _, _, e, h'⟩ := Exchange.run_ok (b := bld) hz ops h hf
  refine ⟨cl, sv, st, ec, es, e, i, ?_, h'.answers, ?_⟩
  · rcases h'.phase.cases' with ⟨-, -, -, h⟩ | ⟨-, -, -, h, -⟩ | ⟨-, -, -, h, -⟩ <;> omega
  · exact h'.phase.result

/-- **C161**, everything gets done: after any such history, `reqs.length * (L + M + 4) + 1` rounds in which each application runs its loop once and the wires carry what
there is suffice for the client to have the replies to all requests. -/
theorem C161_completes (hz : Sizes P Q R T a c nc mc ns ms L M fuel D fin f reqs) {x : σ} {y : τ} {rc rs : Nat} (hx : R x [] [] rc) (hy : T y [] [] rs)
    (bld : Build) (ops : List Exchange.Op) (hf : ∀ op ∈ ops, Fit nc ns reqs op) {k l : Nat} (hk : Drains P R k) (hl : Drains Q T l) (how : How)
    (dst : List Byte) (mx : Nat) (hfit : Fit nc ns reqs (.serverTurn how)) (hfit' : Fit nc ns reqs (.clientTurn dst mx)) (N : Nat)
    (hN : reqs.length * (L + M + 4) + 1 ≤ N) :
    ∃ cl sv st, BufStream.create bld x nc mc D = .ok cl ∧ BufStream.create bld y ns ms D = .ok sv ∧
      Exchange.run P Q bld f fin M fuel ⟨cl, sv, reqs, false, [], []⟩ (ops ++ (List.replicate N (Exchange.round dst mx how k l)).flatten) = .ok st ∧
      st.answers = reqs.map f ∧ st.served = reqs ∧ st.todo = [] ∧ st.waiting = false := by
  obtain ⟨cl, sv, ec, es, h⟩ := start hz hx hy bld
  obtain ⟨st₁, i₁, _, _, _, _, _, _, _, _, _, _, e₁, h₁⟩ := Exchange.run_ok (b := bld) hz ops h hf
  obtain ⟨N, rfl⟩ : ∃ N', N = N' + 1 := ⟨N - 1, by omega⟩
  obtain ⟨st₂, i₂, qc₂, pc₂, qs₂, ps₂, rc₂, rs₂, e₂, h₂, hrc, hrs, -⟩ := h₁.round (b := bld) hz hk hl (how := how) hfit hfit'
  obtain ⟨st₃, i₃, qc₃, pc₃, qs₃, ps₃, rc₃, rs₃, e₃, h₃, hw⟩ := Sys.rounds (b := bld) hz hk hl hfit hfit' N h₂ hrc hrs
  have hle : work L M reqs i₂ st₂.waiting pc₂ qs₂ ps₂ ≤ reqs.length * (L + M + 4) := by
    have step : ∀ i, i < reqs.length → (reqs.length - (i + 1)) * (L + M + 4) + (L + M + 4) ≤ reqs.length * (L + M + 4) := by
      intro i hi
      rw [← Nat.succ_mul]
      exact Nat.mul_le_mul_right _ (by omega)
    obtain ⟨-, -, hXl, hYl⟩ := h₂.phase.tokens hz
    simp only [List.append_nil, List.length_append] at hXl hYl
    unfold work
    split
    · have hi : i₂ < reqs.length := by
        rcases h₂.phase.cases' with ⟨h, -⟩ | ⟨-, -, -, h, -⟩ | ⟨-, -, -, h, -⟩
        · simp_all
        · exact h
        · exact h
      have := step _ hi
      split <;> omega
    · exact Nat.mul_le_mul_right _ (by omega)
  have h0 : work L M reqs i₃ st₃.waiting pc₃ qs₃ ps₃ = 0 := by omega
  have hdone : st₃.waiting = false ∧ i₃ = reqs.length := by
    unfold work at h0
    cases hw : st₃.waiting with
    | true =>
      rw [hw] at h0
      simp only [if_true] at h0
      split at h0 <;> omega
    | false =>
      rw [hw] at h0
      simp only [Bool.false_eq_true, if_false, Nat.mul_eq_zero] at h0
      rcases h₃.phase.cases' with ⟨-, -, -, h⟩ | ⟨h, -⟩ | ⟨h, -⟩
      · exact ⟨rfl, by omega⟩
      · rw [hw] at h; cases h
      · rw [hw] at h; cases h
  refine ⟨cl, sv, st₃, ec, es, ?_, ?_⟩
  · rw [Exchange.run_append, e₁, res_bind_ok, List.replicate_succ, List.flatten_cons, Exchange.run_append, e₂, res_bind_ok, e₃]
  · have hph := h₃.phase
    have hans := h₃.answers
    obtain ⟨hwf, rfl⟩ := hdone
    rw [List.take_length] at hans
    have hr := hph.result
    rw [hwf] at hr
    exact ⟨hans, by simpa using hr.1, by simpa using hr.2, hwf⟩

theorem Exchange.mock_takes (a b : Nat) : Takes Mock.port (Mock.State a b) a := by
  intro s inq outq room bytes h hl
  obtain ⟨m', e, hm'⟩ := h.inject bytes
  rw [List.take_of_length_le (by omega)] at hm'
  exact ⟨_, m', e, hm'⟩

theorem Exchange.serial_takes (a b : Nat) : Takes Serial.port (Serial.State a b) a := by
  rintro s inq outq room bytes ⟨h1, h2, h3, h4, h5, h6⟩ hl
  refine ⟨_, _, rfl, ?_, h2, h3, h4, ?_, h6⟩
  · rw [List.take_of_length_le (by rw [h1]; omega), h1]
  · simp; omega

/-- **C161** for two serial ports: the requests have at most `L` bytes and the replies less than `M`, with the delimiter they fit into the buffers and into the ports'
receive buffers. The ports' send buffers may be as small as one byte. -/
theorem C161_serial (rx₁ tx₁ rx₂ tx₂ nc mc ns ms L M : Nat) (D : List Byte) (fin : Byte) (f : List Byte → List Byte) (reqs : List (List Byte)) (hfin : fin ∈ D)
    (hreq : ∀ r ∈ reqs, r.length ≤ L ∧ ∀ x ∈ r, x ∉ D) (hrep : ∀ r, (f r).length + 1 ≤ M ∧ ∀ x ∈ f r, x ∉ D) (h1 : L + 1 ≤ mc ∧ L + 1 ≤ rx₂ ∧ L + 1 ≤ ns)
    (h2 : M < ms ∧ M ≤ rx₁ ∧ M ≤ nc) (ht₁ : 0 < tx₁) (ht₂ : 0 < tx₂) (bld : Build) (ops : List Exchange.Op) (hf : ∀ op ∈ ops, Fit nc ns reqs op) (how : How)
    (dst : List Byte) (mx : Nat) (hfit : Fit nc ns reqs (.serverTurn how)) (hfit' : Fit nc ns reqs (.clientTurn dst mx)) (N : Nat)
    (hN : reqs.length * (L + M + 4) + 1 ≤ N) :
    ∃ cl sv st, BufStream.create bld (Serial.create rx₁ tx₁) nc mc D = .ok cl ∧ BufStream.create bld (Serial.create rx₂ tx₂) ns ms D = .ok sv ∧
      Exchange.run Serial.port Serial.port bld f fin M (rx₁ + rx₂ + mc + ms + 1) ⟨cl, sv, reqs, false, [], []⟩
        (ops ++ (List.replicate N (Exchange.round dst mx how tx₁ tx₂)).flatten) = .ok st ∧
      st.answers = reqs.map f ∧ st.served = reqs ∧ st.todo = [] ∧ st.waiting = false := by
  have hR : ∀ rx tx, Serial.State rx tx (Serial.create rx tx) [] [] tx := fun rx tx => ⟨rfl, rfl, rfl, rfl, by simp [Serial.create], by simp [Serial.create]⟩
  exact C161_completes (L := L) ⟨Serial.lossless rx₁ tx₁, Serial.lossless rx₂ tx₂, Exchange.serial_takes rx₁ tx₁, Exchange.serial_takes rx₂ tx₂, by omega, hfin, hreq, hrep, h1, h2⟩
    (hR rx₁ tx₁) (hR rx₂ tx₂) bld ops hf (serial_drains rx₁ tx₁ ht₁) (serial_drains rx₂ tx₂ ht₂) how dst mx hfit hfit' N hN

/-- The conditions can be met: a server that echoes, a client with requests of 3 bytes, ports that send one and two bytes at a time, and a history that begins with
nothing but disorder. -/
example : ∃ cl sv st, BufStream.create .debug (Serial.create 8 1) 8 8 [10] = .ok cl ∧ BufStream.create .debug (Serial.create 8 2) 8 8 [10] = .ok sv ∧
    Exchange.run Serial.port Serial.port .debug (fun l => (l.filter (· ≠ 10)).take 4) 10 5 33
      ⟨cl, sv, [[97, 98, 99], [100, 101, 102]], false, [], []⟩ ([.serverTurn .view, .backward 3, .clientTurn (List.replicate 9 0) 9, .clientTurn (List.replicate 9 0) 9, .clientPush,
        .clientPush, .serverPull, .forward 1] ++ (List.replicate 25 (Exchange.round (List.replicate 9 0) 9 .view 1 2)).flatten) = .ok st ∧
    st.answers = [[97, 98, 99], [100, 101, 102]] ∧ st.served = [[97, 98, 99], [100, 101, 102]] ∧ st.todo = [] ∧ st.waiting = false :=
  have fit : Fit 8 8 [[97, 98, 99], [100, 101, 102]] (.serverTurn .view) := ⟨3, by simp, by decide⟩
  C161_serial 8 1 8 2 8 8 8 8 3 5 [10] 10 (fun l => (l.filter (· ≠ 10)).take 4) [[97, 98, 99], [100, 101, 102]] (by simp) (by decide)
    (fun r => ⟨by simp; omega, fun x hx => by have := List.mem_of_mem_take hx; simp at this; simp [this.2]⟩) (by omega) (by omega) (by omega) (by omega) .debug _
    (by simp only [List.mem_cons, List.not_mem_nil, or_false]; rintro op (rfl | rfl | rfl | rfl | rfl | rfl | rfl | rfl) <;>
          first | exact fit | exact ⟨by omega, by simp⟩ | trivial)
    .view (List.replicate 9 0) 9 fit ⟨by omega, by simp⟩ 25 (by simp)

/-- A client on a mocked port meets the conditions, too. -/
example : Sizes Mock.port Serial.port (Mock.State 64 64) (Serial.State 64 4) 64 64 8 8 8 8 3 5 100 [10] 10 (fun l => (l.filter (· ≠ 10)).take 4) [[97, 98, 99], [100]] :=
  ⟨Mock.port_lossless 64 64, Serial.lossless 64 4, Exchange.mock_takes 64 64, Exchange.serial_takes 64 4, by omega, by simp, by decide,
    fun r => ⟨by simp; omega, fun x hx => by have := List.mem_of_mem_take hx; simp at this; simp [this.2]⟩, by omega, by omega⟩

/-- A request that is longer than the server's input buffer is cut, and the client gets the reply to another one. -/
example : ∃ cl sv, BufStream.create .debug (Serial.create 64 64) 16 16 [10] = .ok cl ∧ BufStream.create .debug (Serial.create 64 64) 4 16 [10] = .ok sv ∧
    (Exchange.run Serial.port Serial.port .debug id 10 10 200 ⟨cl, sv, [[97, 98, 99, 100, 101]], false, [], []⟩
      (List.replicate 3 (Exchange.round (List.replicate 17 0) 17 (.copy (List.replicate 17 0) 17) 64 64)).flatten).map (·.answers) = .ok [[99, 100, 101]] :=
  ⟨_, _, rfl, rfl, rfl⟩

/-- A server that reads requests in place, with 5 bytes each in an input buffer of 8. -/
example : ∃ cl sv, BufStream.create .debug (Serial.create 64 64) 8 8 [10] = .ok cl ∧ BufStream.create .debug (Serial.create 64 64) 8 8 [10] = .ok sv ∧
    Exchange.run Serial.port Serial.port .debug (fun _ => [33]) 10 2 200 ⟨cl, sv, [[97, 98, 99, 100], [97, 98, 99, 100]], false, [], []⟩
      (List.replicate 3 (Exchange.round (List.replicate 9 0) 9 .view 64 64)).flatten = .error .ub :=
  ⟨_, _, rfl, rfl, rfl⟩

/-- A client with an output buffer that is too small for its request waits forever. -/
example (N : Nat) : ∃ cl sv, BufStream.create .debug (Serial.create 64 64) 8 3 [10] = .ok cl ∧ BufStream.create .debug (Serial.create 64 64) 8 8 [10] = .ok sv ∧
    Exchange.run Serial.port Serial.port .debug id 10 6 200 ⟨cl, sv, [[97, 98, 99]], false, [], []⟩
      (List.replicate N (Exchange.Op.clientTurn (List.replicate 9 0) 9)) = .ok ⟨cl, sv, [[97, 98, 99]], false, [], []⟩ := by
  refine ⟨_, _, rfl, rfl, ?_⟩
  induction N with
  | zero => rfl
  | succ n ih => exact ih

end Spine
