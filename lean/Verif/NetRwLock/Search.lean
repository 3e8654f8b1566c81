import Verif.NetRwLock.Shape

/-! Exhaustive searches of the shapes, by the kernel. -/
namespace Verif.NetRwLock

set_option maxRecDepth 100000

/-- All shapes reachable when the endpoints never wait for locks of different kinds at the same time are good. -/
theorem shapes_sameKind :
    explore encShape decShape (shapeSteps Shape.sameKind) Shape.good 10000 [] [encShape (initShape true)] = true := by
  decide +kernel

/-- All shapes reachable when only readers wait at the same time and no local reader uses a lock that is lent. -/
theorem shapes_restful :
    explore encShape decShape (shapeSteps Shape.mild) Shape.restful 10000 [] [encShape (initShape true)] = true := by
  decide +kernel

/-- One endpoint is idle, the other waits for the confirmation of its release, no packet is on the way. -/
def stuckShape : Shape := ⟨.idle, .dropping .read false none, [], [], true, true, true⟩

theorem shapes_stuck :
    explore encShape decShape (shapeSteps fun _ => true) Shape.unheld 10000 [] [encShape stuckShape] = true := by
  decide +kernel

end Verif.NetRwLock
