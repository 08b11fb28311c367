import Verif.Model.I2cBus
import Verif.Spec.I2cBus

/-! The bridge machine behind `dev.write` and `dev.read` of the host library. -/

namespace Lambdalib

/-- The bridge as the device of the host library. -/
def bridgeDev (d : BusDevices) : PyDev BridgeS where
  write l s := l.foldl (bridgeByte d) s
  read n s := (s.replies.take n, { s with replies := s.replies.drop n })

end Lambdalib
