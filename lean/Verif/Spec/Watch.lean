import Verif.Model.Stream
/-!
# A port under observation

Nothing is assumed about the port: it may say that bytes wait and then have none, say that it has room and then refuse a byte, or change its mind at any time. What it
really delivered and really accepted is written down.
-/

namespace Spine

/-- A port, the bytes for which `read` returned `true`, and the bytes for which `write` returned `true`. -/
structure Watched (σ : Type) where
  port : σ
  delivered : List Byte
  accepted : List Byte

/-- The calls of a stream under observation. -/
def Stream.watch {σ : Type} (S : Stream σ) : Stream (Watched σ) where
  available w := S.available w.port
  availableForWrite w := S.availableForWrite w.port
  read w := do
    let (v, port) ← S.read w.port
    return (v, { w with port, delivered := w.delivered ++ v.toList })
  write w c := do
    let (ok, port) ← S.write w.port c
    return (ok, { w with port, accepted := if ok then w.accepted ++ [c] else w.accepted })

/-- A port under observation. -/
def Port.watch {σ : Type} (P : Port σ) : Port (Watched σ) where
  stream := P.stream.watch
  inject w bytes := do
    let (k, port) ← P.inject w.port bytes
    return (k, { w with port })
  extract w k := do
    let (bytes, port) ← P.extract w.port k
    return (bytes, { w with port })

/-- The number of calls of `push_out_data()` in a history. -/
def Device.pushes : List Device.Op → Nat
  | [] => 0
  | .push :: ops => pushes ops + 1
  | _ :: ops => pushes ops

end Spine
