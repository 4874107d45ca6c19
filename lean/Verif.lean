import Verif.Header
import Verif.HeaderProps
import Verif.Seq
import Verif.SeqProps
import Verif.Energy
import Verif.EnergyProps
import Verif.EnergyTime
import Verif.Nano
import Verif.NanoLog
import Verif.NanoInv
import Verif.NanoOrd
import Verif.NanoRetry
import Verif.NanoLive
import Verif.NanoUp
import Verif.NanoCredit
import Verif.NanoProps
import Verif.NanoProps2
import Verif.NanoNet
import Verif.NanoNetProps
import Verif.Thr
import Verif.Macro
import Verif.MacroTime
import Verif.MacroMicro
import Verif.MacroInv
import Verif.MacroProps
import Verif.MacroLive
import Verif.MacroOrd
import Verif.MacroNet
import Verif.MacroNetProps
import Verif.Central
import Verif.Ap
import Verif.ApSweep
import Verif.ApProps
import Verif.ApAck
import Verif.ApRun
import Verif.ApLive
import Verif.ApRec
import Verif.ApCts
import Verif.ApRts
import Verif.Client
import Verif.ClientMicro
import Verif.ClientStep
import Verif.ClientInv
import Verif.ClientGrace
import Verif.ClientProps
import Verif.ClientProps2
import Verif.ClientProps3
import Verif.ClientProps4
import Verif.PhyMacro
import Verif.PhyMacroInv
import Verif.PhyMacroProps
import Verif.Trace
import Verif.PhyNano
import Verif.PhyNanoGap
import Verif.PhyNanoInv
import Verif.PhyNanoProps
import Verif.Channel
import Verif.ChannelProps
import Verif.Sinr
import Verif.MacroTx
import Verif.MacroKeep
import Verif.MacroTimed
import Verif.MacroRtsKeep
import Verif.MacroRtsTimed
import Verif.MacroAnswers
import Verif.MacroStats
import Verif.ClientStats
import Verif.Stack
import Verif.StackNode
import Verif.StackInv
import Verif.StackRx
import Verif.StackProps
import Verif.StackRuns
import Verif.StackTrace
import Verif.StackLive
import Verif.StackRts
import Verif.NanoStack
import Verif.NanoStackRuns
import Verif.NanoStackInv
import Verif.NanoStackRx
import Verif.NanoStackProps
import Verif.NanoAck
import Verif.NanoDataTimer
import Verif.NanoStackEff
import Verif.NanoStackLive
import Verif.NanoStackLiveProps
import Verif.NanoStackDat
import Verif.ApAir
import Verif.ClientAir
import Verif.CentralNet
import Verif.CentralNetProps
import Verif.Antenna
import Verif.AntennaProps
import Verif.Spectrum
import Verif.SpectrumProps
import Verif.SpectrumMask
import Verif.NetDev
import Verif.NetDevProps
import Verif.Apps
import Verif.AppsProps
import Verif.Seed
import Verif.Air
import Verif.AirInv
import Verif.AirRx
import Verif.TxView
import Verif.ClientTx
import Verif.ApTx
import Verif.ClientRxT
import Verif.CStack
import Verif.CStackInv
import Verif.CStackGot
import Verif.CStackProps
import Verif.CStackRuns
