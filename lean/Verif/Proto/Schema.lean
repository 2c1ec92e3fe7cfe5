import Verif.Proto.Wire
/-
The same messages as the schema has them: the descriptors (`file_descriptor_proto_data`) that are embedded in the generated files of
bd-proto/src/protos, decoded.  Made by /verif/tools/protos.py.  A field: its number, its type and what kind of field it is (proto3:
a repeated number is packed, a singular message or `optional` field has presence).  The order is that of the generated structs:
the fields in the order of the file, then the alternatives of the oneofs.
-/
namespace Verif.Wire

structure SField where
  num : Nat
  kind : Kind
  label : Label
  deriving DecidableEq, Repr

abbrev Schema := List (List SField)

/-- `bitdrift_public.protobuf.bdtail.v1.TailLogsRequest` (bd-proto/src/protos/bdtail/bdtail_api.rs). -/
def s0 : List SField := [⟨1, .str, .plain⟩]

/-- `bitdrift_public.protobuf.bdtail.v1.Logs` (bd-proto/src/protos/bdtail/bdtail_api.rs). -/
def s1 : List SField := [⟨1, .bytes, .rep⟩]

/-- `bitdrift_public.protobuf.bdtail.v1.InvalidRequest` (bd-proto/src/protos/bdtail/bdtail_api.rs). -/
def s2 : List SField := [⟨1, .str, .plain⟩]

/-- `bitdrift_public.protobuf.bdtail.v1.TailLogsResponse` (bd-proto/src/protos/bdtail/bdtail_api.rs). -/
def s3 : List SField := [⟨1, .msg 1, .one 0⟩, ⟨2, .msg 2, .one 0⟩]

/-- `bitdrift_public.protobuf.bdtail.v1.BdTailStream` (bd-proto/src/protos/bdtail/bdtail_config.rs). -/
def s4 : List SField := [⟨1, .str, .plain⟩, ⟨2, .msg 93, .opt⟩]

/-- `bitdrift_public.protobuf.bdtail.v1.BdTailConfigurations` (bd-proto/src/protos/bdtail/bdtail_config.rs). -/
def s5 : List SField := [⟨1, .msg 4, .rep⟩]

/-- `bitdrift_public.protobuf.client.v1.ClientKillFile` (bd-proto/src/protos/client/api.rs). -/
def s6 : List SField := [⟨1, .bytes, .plain⟩, ⟨2, .msg 183, .opt⟩]

/-- `bitdrift_public.protobuf.client.v1.HandshakeRequest` (bd-proto/src/protos/client/api.rs). -/
def s7 : List SField := [⟨1, .msg 186, .map⟩, ⟨3, .str, .plain⟩, ⟨4, .str, .plain⟩, ⟨5, .msg 187, .map⟩, ⟨6, .str, .plain⟩]

/-- `bitdrift_public.protobuf.client.v1.OpaqueConfigurationUpdate` (bd-proto/src/protos/client/api.rs). -/
def s8 : List SField := [⟨1, .str, .plain⟩, ⟨2, .msg 185, .opt⟩]

/-- `bitdrift_public.protobuf.client.v1.OpaqueConfigurationUpdateAck` (bd-proto/src/protos/client/api.rs). -/
def s9 : List SField := [⟨1, .str, .plain⟩, ⟨2, .msg 17, .opt⟩]

/-- `bitdrift_public.protobuf.client.v1.LogUploadIntentRequest` (bd-proto/src/protos/client/api.rs). -/
def s10 : List SField := [⟨1, .u32, .plain⟩, ⟨2, .u32, .plain⟩, ⟨3, .str, .plain⟩, ⟨4, .str, .plain⟩, ⟨6, .str, .plain⟩, ⟨5, .msg 11, .one 0⟩]

/-- `bitdrift_public.protobuf.client.v1.LogUploadIntentRequest.WorkflowActionUpload` (bd-proto/src/protos/client/api.rs). -/
def s11 : List SField := [⟨1, .str, .rep⟩]

/-- `bitdrift_public.protobuf.client.v1.LogUploadIntentResponse` (bd-proto/src/protos/client/api.rs). -/
def s12 : List SField := [⟨1, .str, .plain⟩, ⟨2, .msg 13, .one 0⟩, ⟨3, .msg 14, .one 0⟩]

/-- `bitdrift_public.protobuf.client.v1.LogUploadIntentResponse.UploadImmediately` (bd-proto/src/protos/client/api.rs). -/
def s13 : List SField := []

/-- `bitdrift_public.protobuf.client.v1.LogUploadIntentResponse.Drop` (bd-proto/src/protos/client/api.rs). -/
def s14 : List SField := []

/-- `bitdrift_public.protobuf.client.v1.LogUploadRequest` (bd-proto/src/protos/client/api.rs). -/
def s15 : List SField := [⟨1, .str, .plain⟩, ⟨2, .bytes, .rep⟩, ⟨3, .str, .plain⟩]

/-- `bitdrift_public.protobuf.client.v1.PingRequest` (bd-proto/src/protos/client/api.rs). -/
def s16 : List SField := []

/-- `bitdrift_public.protobuf.client.v1.ConfigurationUpdateAck` (bd-proto/src/protos/client/api.rs). -/
def s17 : List SField := [⟨1, .str, .plain⟩, ⟨2, .msg 18, .opt⟩]

/-- `bitdrift_public.protobuf.client.v1.ConfigurationUpdateAck.Nack` (bd-proto/src/protos/client/api.rs). -/
def s18 : List SField := [⟨1, .str, .plain⟩, ⟨2, .str, .plain⟩]

/-- `bitdrift_public.protobuf.client.v1.ApiRequest` (bd-proto/src/protos/client/api.rs). -/
def s19 : List SField := [⟨1, .msg 7, .one 0⟩, ⟨7, .msg 10, .one 0⟩, ⟨2, .msg 15, .one 0⟩, ⟨6, .msg 27, .one 0⟩, ⟨3, .msg 16, .one 0⟩, ⟨4, .msg 17, .one 0⟩, ⟨5, .msg 17, .one 0⟩, ⟨8, .msg 9, .one 0⟩, ⟨9, .msg 31, .one 0⟩, ⟨10, .msg 20, .one 0⟩, ⟨11, .msg 22, .one 0⟩]

/-- `bitdrift_public.protobuf.client.v1.SankeyPathUploadRequest` (bd-proto/src/protos/client/api.rs). -/
def s20 : List SField := [⟨4, .str, .plain⟩, ⟨1, .str, .plain⟩, ⟨2, .str, .plain⟩, ⟨3, .msg 21, .rep⟩]

/-- `bitdrift_public.protobuf.client.v1.SankeyPathUploadRequest.Node` (bd-proto/src/protos/client/api.rs). -/
def s21 : List SField := [⟨1, .str, .plain⟩]

/-- `bitdrift_public.protobuf.client.v1.SankeyIntentRequest` (bd-proto/src/protos/client/api.rs). -/
def s22 : List SField := [⟨1, .str, .plain⟩, ⟨2, .str, .plain⟩, ⟨3, .str, .plain⟩]

/-- `bitdrift_public.protobuf.client.v1.HandshakeResponse` (bd-proto/src/protos/client/api.rs). -/
def s23 : List SField := [⟨1, .msg 24, .opt⟩]

/-- `bitdrift_public.protobuf.client.v1.HandshakeResponse.StreamSettings` (bd-proto/src/protos/client/api.rs). -/
def s24 : List SField := [⟨1, .msg 184, .opt⟩]

/-- `bitdrift_public.protobuf.client.v1.RateLimited` (bd-proto/src/protos/client/api.rs). -/
def s25 : List SField := []

/-- `bitdrift_public.protobuf.client.v1.LogUploadResponse` (bd-proto/src/protos/client/api.rs). -/
def s26 : List SField := [⟨1, .str, .plain⟩, ⟨2, .str, .plain⟩, ⟨3, .u32, .plain⟩, ⟨4, .msg 25, .opt⟩]

/-- `bitdrift_public.protobuf.client.v1.StatsUploadRequest` (bd-proto/src/protos/client/api.rs). -/
def s27 : List SField := [⟨1, .str, .plain⟩, ⟨2, .msg 28, .rep⟩, ⟨3, .msg 183, .opt⟩]

/-- `bitdrift_public.protobuf.client.v1.StatsUploadRequest.Snapshot` (bd-proto/src/protos/client/api.rs). -/
def s28 : List SField := [⟨1, .msg 61, .one 0⟩, ⟨2, .msg 29, .one 1⟩]

/-- `bitdrift_public.protobuf.client.v1.StatsUploadRequest.Snapshot.Aggregated` (bd-proto/src/protos/client/api.rs). -/
def s29 : List SField := [⟨4, .msg 183, .opt⟩, ⟨5, .msg 183, .opt⟩]

/-- `bitdrift_public.protobuf.client.v1.StatsUploadResponse` (bd-proto/src/protos/client/api.rs). -/
def s30 : List SField := [⟨1, .str, .plain⟩, ⟨2, .str, .plain⟩, ⟨3, .u32, .plain⟩]

/-- `bitdrift_public.protobuf.client.v1.OpaqueRequest` (bd-proto/src/protos/client/api.rs). -/
def s31 : List SField := [⟨1, .str, .plain⟩, ⟨2, .msg 185, .opt⟩]

/-- `bitdrift_public.protobuf.client.v1.OpaqueResponse` (bd-proto/src/protos/client/api.rs). -/
def s32 : List SField := [⟨1, .str, .plain⟩, ⟨2, .str, .opt⟩]

/-- `bitdrift_public.protobuf.client.v1.PongResponse` (bd-proto/src/protos/client/api.rs). -/
def s33 : List SField := []

/-- `bitdrift_public.protobuf.client.v1.ConfigurationUpdate` (bd-proto/src/protos/client/api.rs). -/
def s34 : List SField := [⟨1, .str, .plain⟩, ⟨2, .msg 35, .one 0⟩]

/-- `bitdrift_public.protobuf.client.v1.ConfigurationUpdate.StateOfTheWorld` (bd-proto/src/protos/client/api.rs). -/
def s35 : List SField := [⟨3, .msg 77, .opt⟩, ⟨4, .msg 156, .opt⟩, ⟨6, .msg 5, .opt⟩, ⟨8, .msg 78, .opt⟩]

/-- `bitdrift_public.protobuf.client.v1.RuntimeUpdate` (bd-proto/src/protos/client/api.rs). -/
def s36 : List SField := [⟨1, .str, .plain⟩, ⟨2, .msg 64, .opt⟩]

/-- `bitdrift_public.protobuf.client.v1.ErrorShutdown` (bd-proto/src/protos/client/api.rs). -/
def s37 : List SField := [⟨1, .i32, .plain⟩, ⟨2, .str, .plain⟩]

/-- `bitdrift_public.protobuf.client.v1.FlushBuffers` (bd-proto/src/protos/client/api.rs). -/
def s38 : List SField := [⟨1, .str, .rep⟩]

/-- `bitdrift_public.protobuf.client.v1.SankeyPathUploadResponse` (bd-proto/src/protos/client/api.rs). -/
def s39 : List SField := [⟨1, .str, .plain⟩, ⟨2, .str, .plain⟩]

/-- `bitdrift_public.protobuf.client.v1.SankeyIntentResponse` (bd-proto/src/protos/client/api.rs). -/
def s40 : List SField := [⟨1, .str, .plain⟩, ⟨3, .msg 41, .one 0⟩, ⟨4, .msg 42, .one 0⟩]

/-- `bitdrift_public.protobuf.client.v1.SankeyIntentResponse.UploadImmediately` (bd-proto/src/protos/client/api.rs). -/
def s41 : List SField := []

/-- `bitdrift_public.protobuf.client.v1.SankeyIntentResponse.Drop` (bd-proto/src/protos/client/api.rs). -/
def s42 : List SField := []

/-- `bitdrift_public.protobuf.client.v1.ApiResponse` (bd-proto/src/protos/client/api.rs). -/
def s43 : List SField := [⟨1, .msg 23, .one 0⟩, ⟨2, .msg 26, .one 0⟩, ⟨8, .msg 12, .one 0⟩, ⟨7, .msg 30, .one 0⟩, ⟨3, .msg 33, .one 0⟩, ⟨4, .msg 34, .one 0⟩, ⟨5, .msg 36, .one 0⟩, ⟨6, .msg 37, .one 0⟩, ⟨9, .msg 38, .one 0⟩, ⟨10, .msg 8, .one 0⟩, ⟨11, .msg 32, .one 0⟩, ⟨12, .msg 39, .one 0⟩, ⟨13, .msg 40, .one 0⟩]

/-- `bitdrift_public.protobuf.client.v1.Matcher` (bd-proto/src/protos/client/matcher.rs). -/
def s44 : List SField := [⟨1, .bool, .one 0⟩, ⟨2, .msg 46, .one 0⟩, ⟨3, .msg 46, .one 0⟩, ⟨4, .msg 47, .one 0⟩, ⟨5, .msg 48, .one 0⟩, ⟨6, .msg 49, .one 0⟩]

/-- `bitdrift_public.protobuf.client.v1.Matcher.Key` (bd-proto/src/protos/client/matcher.rs). -/
def s45 : List SField := [⟨1, .str, .one 0⟩]

/-- `bitdrift_public.protobuf.client.v1.Matcher.MatcherList` (bd-proto/src/protos/client/matcher.rs). -/
def s46 : List SField := [⟨1, .msg 44, .rep⟩]

/-- `bitdrift_public.protobuf.client.v1.Matcher.StringMatch` (bd-proto/src/protos/client/matcher.rs). -/
def s47 : List SField := [⟨1, .msg 45, .opt⟩, ⟨2, .str, .plain⟩, ⟨3, .enum, .plain⟩]

/-- `bitdrift_public.protobuf.client.v1.Matcher.IntMatch` (bd-proto/src/protos/client/matcher.rs). -/
def s48 : List SField := [⟨1, .msg 45, .opt⟩, ⟨2, .i64, .plain⟩, ⟨3, .enum, .plain⟩]

/-- `bitdrift_public.protobuf.client.v1.Matcher.ConsistentHashMatch` (bd-proto/src/protos/client/matcher.rs). -/
def s49 : List SField := [⟨1, .msg 45, .opt⟩, ⟨2, .u64, .plain⟩, ⟨3, .u64, .plain⟩, ⟨4, .u64, .plain⟩]

/-- `bitdrift_public.protobuf.client.v1.RootMatcher` (bd-proto/src/protos/client/matcher.rs). -/
def s50 : List SField := [⟨3, .msg 44, .opt⟩, ⟨1, .msg 51, .one 0⟩, ⟨2, .msg 52, .one 0⟩]

/-- `bitdrift_public.protobuf.client.v1.RootMatcher.ClientTarget` (bd-proto/src/protos/client/matcher.rs). -/
def s51 : List SField := []

/-- `bitdrift_public.protobuf.client.v1.RootMatcher.ServerTarget` (bd-proto/src/protos/client/matcher.rs). -/
def s52 : List SField := []

/-- `bitdrift_public.protobuf.client.v1.PendingAggregationIndex` (bd-proto/src/protos/client/metric.rs). -/
def s53 : List SField := [⟨1, .msg 54, .rep⟩]

/-- `bitdrift_public.protobuf.client.v1.PendingAggregationIndex.PendingFile` (bd-proto/src/protos/client/metric.rs). -/
def s54 : List SField := [⟨1, .str, .plain⟩, ⟨2, .msg 183, .opt⟩, ⟨3, .msg 183, .opt⟩]

/-- `bitdrift_public.protobuf.client.v1.Counter` (bd-proto/src/protos/client/metric.rs). -/
def s55 : List SField := [⟨1, .u32, .plain⟩, ⟨2, .u64, .plain⟩]

/-- `bitdrift_public.protobuf.client.v1.FixedBucketHistogram` (bd-proto/src/protos/client/metric.rs). -/
def s56 : List SField := [⟨1, .msg 57, .rep⟩, ⟨2, .u64, .plain⟩, ⟨3, .f64, .plain⟩]

/-- `bitdrift_public.protobuf.client.v1.FixedBucketHistogram.Bucket` (bd-proto/src/protos/client/metric.rs). -/
def s57 : List SField := [⟨1, .f64, .plain⟩, ⟨2, .u64, .plain⟩]

/-- `bitdrift_public.protobuf.client.v1.DDSketchHistogram` (bd-proto/src/protos/client/metric.rs). -/
def s58 : List SField := [⟨1, .bytes, .plain⟩]

/-- `bitdrift_public.protobuf.client.v1.InlineHistogramValues` (bd-proto/src/protos/client/metric.rs). -/
def s59 : List SField := [⟨1, .f64, .packed⟩]

/-- `bitdrift_public.protobuf.client.v1.Metric` (bd-proto/src/protos/client/metric.rs). -/
def s60 : List SField := [⟨1, .str, .plain⟩, ⟨2, .msg 188, .map⟩, ⟨3, .msg 55, .one 0⟩, ⟨4, .msg 56, .one 0⟩, ⟨5, .msg 58, .one 0⟩, ⟨6, .msg 59, .one 0⟩]

/-- `bitdrift_public.protobuf.client.v1.MetricsList` (bd-proto/src/protos/client/metric.rs). -/
def s61 : List SField := [⟨1, .msg 60, .rep⟩]

/-- `bitdrift_public.protobuf.client.v1.RuntimeSet` (bd-proto/src/protos/client/runtime.rs). -/
def s62 : List SField := [⟨1, .msg 63, .rep⟩]

/-- `bitdrift_public.protobuf.client.v1.RuntimeSet.RuntimeAndMatcher` (bd-proto/src/protos/client/runtime.rs). -/
def s63 : List SField := [⟨1, .msg 44, .opt⟩, ⟨2, .msg 64, .opt⟩]

/-- `bitdrift_public.protobuf.client.v1.Runtime` (bd-proto/src/protos/client/runtime.rs). -/
def s64 : List SField := [⟨1, .msg 189, .map⟩]

/-- `bitdrift_public.protobuf.client.v1.Runtime.Value` (bd-proto/src/protos/client/runtime.rs). -/
def s65 : List SField := [⟨1, .bool, .one 0⟩, ⟨2, .u32, .one 0⟩, ⟨3, .str, .one 0⟩]

/-- `bitdrift_public.protobuf.config.v1.LogMatcher` (bd-proto/src/protos/config/v1/config.rs). -/
def s66 : List SField := [⟨1, .msg 67, .one 0⟩, ⟨2, .msg 73, .one 0⟩, ⟨3, .msg 73, .one 0⟩, ⟨4, .msg 66, .one 0⟩]

/-- `bitdrift_public.protobuf.config.v1.LogMatcher.BaseLogMatcher` (bd-proto/src/protos/config/v1/config.rs). -/
def s67 : List SField := [⟨1, .msg 68, .one 0⟩, ⟨2, .msg 69, .one 0⟩, ⟨3, .msg 70, .one 0⟩, ⟨5, .msg 72, .one 0⟩, ⟨4, .msg 71, .one 0⟩]

/-- `bitdrift_public.protobuf.config.v1.LogMatcher.BaseLogMatcher.LogLevelMatch` (bd-proto/src/protos/config/v1/config.rs). -/
def s68 : List SField := [⟨1, .enum, .plain⟩, ⟨2, .enum, .plain⟩]

/-- `bitdrift_public.protobuf.config.v1.LogMatcher.BaseLogMatcher.MessageMatch` (bd-proto/src/protos/config/v1/config.rs). -/
def s69 : List SField := [⟨1, .enum, .plain⟩, ⟨2, .str, .plain⟩]

/-- `bitdrift_public.protobuf.config.v1.LogMatcher.BaseLogMatcher.TagMatch` (bd-proto/src/protos/config/v1/config.rs). -/
def s70 : List SField := [⟨1, .enum, .plain⟩, ⟨2, .str, .plain⟩, ⟨3, .str, .plain⟩]

/-- `bitdrift_public.protobuf.config.v1.LogMatcher.BaseLogMatcher.AnyMatch` (bd-proto/src/protos/config/v1/config.rs). -/
def s71 : List SField := []

/-- `bitdrift_public.protobuf.config.v1.LogMatcher.BaseLogMatcher.TypeMatch` (bd-proto/src/protos/config/v1/config.rs). -/
def s72 : List SField := [⟨1, .u32, .plain⟩]

/-- `bitdrift_public.protobuf.config.v1.LogMatcher.MatcherList` (bd-proto/src/protos/config/v1/config.rs). -/
def s73 : List SField := [⟨1, .msg 66, .rep⟩]

/-- `bitdrift_public.protobuf.config.v1.BufferConfig` (bd-proto/src/protos/config/v1/config.rs). -/
def s74 : List SField := [⟨1, .str, .plain⟩, ⟨2, .str, .plain⟩, ⟨3, .msg 75, .rep⟩, ⟨4, .enum, .plain⟩, ⟨5, .msg 76, .opt⟩, ⟨6, .msg 50, .opt⟩]

/-- `bitdrift_public.protobuf.config.v1.BufferConfig.BufferFilter` (bd-proto/src/protos/config/v1/config.rs). -/
def s75 : List SField := [⟨1, .str, .plain⟩, ⟨2, .str, .plain⟩, ⟨3, .msg 66, .opt⟩]

/-- `bitdrift_public.protobuf.config.v1.BufferConfig.BufferSizes` (bd-proto/src/protos/config/v1/config.rs). -/
def s76 : List SField := [⟨1, .u32, .plain⟩, ⟨2, .u32, .plain⟩]

/-- `bitdrift_public.protobuf.config.v1.BufferConfigList` (bd-proto/src/protos/config/v1/config.rs). -/
def s77 : List SField := [⟨1, .msg 74, .rep⟩]

/-- `bitdrift_public.protobuf.filter.v1.FiltersConfiguration` (bd-proto/src/protos/filter/filter.rs). -/
def s78 : List SField := [⟨1, .msg 79, .rep⟩]

/-- `bitdrift_public.protobuf.filter.v1.Filter` (bd-proto/src/protos/filter/filter.rs). -/
def s79 : List SField := [⟨1, .msg 93, .opt⟩, ⟨2, .msg 80, .rep⟩]

/-- `bitdrift_public.protobuf.filter.v1.Filter.Transform` (bd-proto/src/protos/filter/filter.rs). -/
def s80 : List SField := [⟨1, .msg 81, .one 0⟩, ⟨2, .msg 82, .one 0⟩, ⟨3, .msg 85, .one 0⟩, ⟨4, .msg 86, .one 0⟩]

/-- `bitdrift_public.protobuf.filter.v1.Filter.Transform.CaptureField` (bd-proto/src/protos/filter/filter.rs). -/
def s81 : List SField := [⟨1, .str, .plain⟩]

/-- `bitdrift_public.protobuf.filter.v1.Filter.Transform.SetField` (bd-proto/src/protos/filter/filter.rs). -/
def s82 : List SField := [⟨1, .str, .plain⟩, ⟨2, .msg 83, .opt⟩, ⟨3, .enum, .plain⟩, ⟨4, .bool, .plain⟩]

/-- `bitdrift_public.protobuf.filter.v1.Filter.Transform.SetField.SetFieldValue` (bd-proto/src/protos/filter/filter.rs). -/
def s83 : List SField := [⟨1, .str, .one 0⟩, ⟨2, .msg 84, .one 0⟩]

/-- `bitdrift_public.protobuf.filter.v1.Filter.Transform.SetField.SetFieldValue.ExistingField` (bd-proto/src/protos/filter/filter.rs). -/
def s84 : List SField := [⟨1, .str, .plain⟩]

/-- `bitdrift_public.protobuf.filter.v1.Filter.Transform.RemoveField` (bd-proto/src/protos/filter/filter.rs). -/
def s85 : List SField := [⟨1, .str, .plain⟩]

/-- `bitdrift_public.protobuf.filter.v1.Filter.Transform.RegexMatchAndSubstituteField` (bd-proto/src/protos/filter/filter.rs). -/
def s86 : List SField := [⟨1, .str, .plain⟩, ⟨2, .str, .plain⟩, ⟨3, .str, .plain⟩]

/-- `google.api.Http` (bd-proto/src/protos/google/api/http.rs). -/
def s87 : List SField := [⟨1, .msg 88, .rep⟩, ⟨2, .bool, .plain⟩]

/-- `google.api.HttpRule` (bd-proto/src/protos/google/api/http.rs). -/
def s88 : List SField := [⟨1, .str, .plain⟩, ⟨7, .str, .plain⟩, ⟨12, .str, .plain⟩, ⟨11, .msg 88, .rep⟩, ⟨2, .str, .one 0⟩, ⟨3, .str, .one 0⟩, ⟨4, .str, .one 0⟩, ⟨5, .str, .one 0⟩, ⟨6, .str, .one 0⟩, ⟨8, .msg 89, .one 0⟩]

/-- `google.api.CustomHttpPattern` (bd-proto/src/protos/google/api/http.rs). -/
def s89 : List SField := [⟨1, .str, .plain⟩, ⟨2, .str, .plain⟩]

/-- `bitdrift_public.protobuf.insight.v1.InsightsConfiguration` (bd-proto/src/protos/insight/insight.rs). -/
def s90 : List SField := [⟨1, .msg 91, .rep⟩]

/-- `bitdrift_public.protobuf.insight.v1.Insight` (bd-proto/src/protos/insight/insight.rs). -/
def s91 : List SField := [⟨1, .msg 92, .one 0⟩]

/-- `bitdrift_public.protobuf.insight.v1.Insight.LogField` (bd-proto/src/protos/insight/insight.rs). -/
def s92 : List SField := [⟨1, .str, .plain⟩]

/-- `bitdrift_public.protobuf.matcher.v1.LogMatcher` (bd-proto/src/protos/log_matcher/log_matcher.rs). -/
def s93 : List SField := [⟨1, .msg 94, .one 0⟩, ⟨2, .msg 101, .one 0⟩, ⟨3, .msg 101, .one 0⟩, ⟨4, .msg 93, .one 0⟩]

/-- `bitdrift_public.protobuf.matcher.v1.LogMatcher.BaseLogMatcher` (bd-proto/src/protos/log_matcher/log_matcher.rs). -/
def s94 : List SField := [⟨1, .msg 98, .one 0⟩, ⟨2, .msg 100, .one 0⟩]

/-- `bitdrift_public.protobuf.matcher.v1.LogMatcher.BaseLogMatcher.StringValueMatch` (bd-proto/src/protos/log_matcher/log_matcher.rs). -/
def s95 : List SField := [⟨1, .enum, .plain⟩, ⟨2, .str, .plain⟩]

/-- `bitdrift_public.protobuf.matcher.v1.LogMatcher.BaseLogMatcher.IntValueMatch` (bd-proto/src/protos/log_matcher/log_matcher.rs). -/
def s96 : List SField := [⟨1, .enum, .plain⟩, ⟨2, .i32, .plain⟩]

/-- `bitdrift_public.protobuf.matcher.v1.LogMatcher.BaseLogMatcher.SemVerValueMatch` (bd-proto/src/protos/log_matcher/log_matcher.rs). -/
def s97 : List SField := [⟨1, .enum, .plain⟩, ⟨2, .str, .plain⟩]

/-- `bitdrift_public.protobuf.matcher.v1.LogMatcher.BaseLogMatcher.MessageMatch` (bd-proto/src/protos/log_matcher/log_matcher.rs). -/
def s98 : List SField := [⟨1, .msg 95, .opt⟩]

/-- `bitdrift_public.protobuf.matcher.v1.LogMatcher.BaseLogMatcher.IsSetMatch` (bd-proto/src/protos/log_matcher/log_matcher.rs). -/
def s99 : List SField := []

/-- `bitdrift_public.protobuf.matcher.v1.LogMatcher.BaseLogMatcher.TagMatch` (bd-proto/src/protos/log_matcher/log_matcher.rs). -/
def s100 : List SField := [⟨1, .str, .plain⟩, ⟨2, .msg 95, .one 0⟩, ⟨3, .msg 96, .one 0⟩, ⟨4, .msg 97, .one 0⟩, ⟨5, .msg 99, .one 0⟩]

/-- `bitdrift_public.protobuf.matcher.v1.LogMatcher.MatcherList` (bd-proto/src/protos/log_matcher/log_matcher.rs). -/
def s101 : List SField := [⟨1, .msg 93, .rep⟩]

/-- `bitdrift_public.protobuf.logging.v1.BinaryData` (bd-proto/src/protos/logging/payload.rs). -/
def s102 : List SField := [⟨1, .str, .opt⟩, ⟨2, .bytes, .plain⟩]

/-- `bitdrift_public.protobuf.logging.v1.Data` (bd-proto/src/protos/logging/payload.rs). -/
def s103 : List SField := [⟨1, .str, .one 0⟩, ⟨2, .msg 102, .one 0⟩]

/-- `bitdrift_public.protobuf.mme.v1.Metric` (bd-proto/src/protos/mme/service.rs). -/
def s104 : List SField := [⟨1, .str, .plain⟩, ⟨2, .msg 105, .rep⟩, ⟨8, .str, .rep⟩, ⟨9, .i64, .opt⟩, ⟨10, .i64, .opt⟩, ⟨11, .i64, .plain⟩, ⟨12, .i64, .plain⟩, ⟨13, .i64, .opt⟩]

/-- `bitdrift_public.protobuf.mme.v1.Annotation` (bd-proto/src/protos/mme/service.rs). -/
def s105 : List SField := [⟨1, .str, .plain⟩, ⟨2, .str, .plain⟩]

/-- `bitdrift_public.protobuf.mme.v1.LabelMatcher` (bd-proto/src/protos/mme/service.rs). -/
def s106 : List SField := [⟨1, .str, .plain⟩, ⟨2, .str, .plain⟩, ⟨3, .enum, .plain⟩]

/-- `bitdrift_public.protobuf.mme.v1.Matcher` (bd-proto/src/protos/mme/service.rs). -/
def s107 : List SField := [⟨1, .msg 106, .rep⟩]

/-- `bitdrift_public.protobuf.mme.v1.MatcherList` (bd-proto/src/protos/mme/service.rs). -/
def s108 : List SField := [⟨1, .msg 107, .rep⟩]

/-- `bitdrift_public.protobuf.mme.v1.GetBlocklistRequest` (bd-proto/src/protos/mme/service.rs). -/
def s109 : List SField := [⟨1, .msg 107, .opt⟩, ⟨2, .u64, .plain⟩, ⟨3, .u64, .plain⟩, ⟨4, .bool, .plain⟩]

/-- `bitdrift_public.protobuf.mme.v1.GetBlocklistResponse` (bd-proto/src/protos/mme/service.rs). -/
def s110 : List SField := [⟨1, .msg 104, .rep⟩]

/-- `bitdrift_public.protobuf.mme.v1.AllowMetricsRequest` (bd-proto/src/protos/mme/service.rs). -/
def s111 : List SField := [⟨1, .msg 107, .opt⟩, ⟨2, .bool, .plain⟩]

/-- `bitdrift_public.protobuf.mme.v1.AllowMetricsResponse` (bd-proto/src/protos/mme/service.rs). -/
def s112 : List SField := []

/-- `bitdrift_public.protobuf.mme.v1.BlockMetricsRequest` (bd-proto/src/protos/mme/service.rs). -/
def s113 : List SField := [⟨1, .msg 107, .opt⟩]

/-- `bitdrift_public.protobuf.mme.v1.BlockMetricsResponse` (bd-proto/src/protos/mme/service.rs). -/
def s114 : List SField := []

/-- `bitdrift_public.protobuf.mme.v1.GetAllowlistRequest` (bd-proto/src/protos/mme/service.rs). -/
def s115 : List SField := []

/-- `bitdrift_public.protobuf.mme.v1.GetAllowlistResponse` (bd-proto/src/protos/mme/service.rs). -/
def s116 : List SField := [⟨1, .msg 107, .rep⟩]

/-- `bitdrift_public.protobuf.mme.v1.AllowMetricsByQueryRequest` (bd-proto/src/protos/mme/service.rs). -/
def s117 : List SField := [⟨1, .str, .plain⟩]

/-- `bitdrift_public.protobuf.mme.v1.AllowMetricsByQueryResponse` (bd-proto/src/protos/mme/service.rs). -/
def s118 : List SField := []

/-- `bitdrift_public.protobuf.mme.v1.GetMetricsRequest` (bd-proto/src/protos/mme/service.rs). -/
def s119 : List SField := [⟨1, .msg 107, .opt⟩, ⟨6, .str, .plain⟩, ⟨2, .u64, .plain⟩, ⟨3, .u64, .plain⟩, ⟨4, .enum, .plain⟩, ⟨5, .enum, .plain⟩]

/-- `bitdrift_public.protobuf.mme.v1.GetMetricsResponse` (bd-proto/src/protos/mme/service.rs). -/
def s120 : List SField := [⟨1, .msg 104, .rep⟩, ⟨2, .u64, .plain⟩]

/-- `bitdrift_public.protobuf.mme.v1.TypeaheadRequest` (bd-proto/src/protos/mme/service.rs). -/
def s121 : List SField := [⟨1, .str, .plain⟩, ⟨2, .u64, .opt⟩]

/-- `bitdrift_public.protobuf.mme.v1.TypeaheadResponse` (bd-proto/src/protos/mme/service.rs). -/
def s122 : List SField := [⟨1, .str, .plain⟩, ⟨2, .str, .rep⟩]

/-- `bitdrift_public.protobuf.mme.v1.QueryMetadata` (bd-proto/src/protos/mme/service.rs). -/
def s123 : List SField := [⟨1, .str, .plain⟩, ⟨2, .str, .plain⟩, ⟨3, .str, .plain⟩, ⟨4, .f32, .plain⟩, ⟨5, .bool, .plain⟩, ⟨6, .bool, .plain⟩, ⟨7, .bool, .plain⟩, ⟨8, .i64, .plain⟩, ⟨9, .i64, .plain⟩, ⟨10, .i32, .plain⟩, ⟨11, .i64, .plain⟩]

/-- `bitdrift_public.protobuf.mme.v1.BulkUpdateLastReadRequest` (bd-proto/src/protos/mme/service.rs). -/
def s124 : List SField := [⟨1, .str, .rep⟩]

/-- `bitdrift_public.protobuf.mme.v1.BulkUpdateLastReadResponse` (bd-proto/src/protos/mme/service.rs). -/
def s125 : List SField := []

/-- `bitdrift_public.protobuf.mme.v1.BulkUpdateQueriesMetadataRequest` (bd-proto/src/protos/mme/service.rs). -/
def s126 : List SField := [⟨1, .msg 123, .rep⟩]

/-- `bitdrift_public.protobuf.mme.v1.BulkUpdateQueriesMetadataResponse` (bd-proto/src/protos/mme/service.rs). -/
def s127 : List SField := []

/-- `prometheus.WriteRequest` (bd-proto/src/protos/prometheus/prompb/remote.rs). -/
def s128 : List SField := [⟨1, .msg 137, .rep⟩, ⟨3, .msg 134, .rep⟩, ⟨17, .str, .rep⟩]

/-- `prometheus.ReadRequest` (bd-proto/src/protos/prometheus/prompb/remote.rs). -/
def s129 : List SField := [⟨1, .msg 131, .rep⟩, ⟨2, .enum, .packed⟩]

/-- `prometheus.ReadResponse` (bd-proto/src/protos/prometheus/prompb/remote.rs). -/
def s130 : List SField := [⟨1, .msg 132, .rep⟩]

/-- `prometheus.Query` (bd-proto/src/protos/prometheus/prompb/remote.rs). -/
def s131 : List SField := [⟨1, .i64, .plain⟩, ⟨2, .i64, .plain⟩, ⟨3, .msg 140, .rep⟩, ⟨4, .msg 141, .opt⟩]

/-- `prometheus.QueryResult` (bd-proto/src/protos/prometheus/prompb/remote.rs). -/
def s132 : List SField := [⟨1, .msg 137, .rep⟩]

/-- `prometheus.ChunkedReadResponse` (bd-proto/src/protos/prometheus/prompb/remote.rs). -/
def s133 : List SField := [⟨1, .msg 143, .rep⟩, ⟨2, .i64, .plain⟩]

/-- `prometheus.MetricMetadata` (bd-proto/src/protos/prometheus/prompb/types.rs). -/
def s134 : List SField := [⟨1, .enum, .plain⟩, ⟨2, .str, .plain⟩, ⟨4, .str, .plain⟩, ⟨5, .str, .plain⟩]

/-- `prometheus.Sample` (bd-proto/src/protos/prometheus/prompb/types.rs). -/
def s135 : List SField := [⟨1, .f64, .plain⟩, ⟨2, .i64, .plain⟩, ⟨100, .f64, .plain⟩]

/-- `prometheus.Exemplar` (bd-proto/src/protos/prometheus/prompb/types.rs). -/
def s136 : List SField := [⟨1, .msg 138, .rep⟩, ⟨2, .f64, .plain⟩, ⟨3, .i64, .plain⟩]

/-- `prometheus.TimeSeries` (bd-proto/src/protos/prometheus/prompb/types.rs). -/
def s137 : List SField := [⟨1, .msg 138, .rep⟩, ⟨2, .msg 135, .rep⟩, ⟨3, .msg 136, .rep⟩]

/-- `prometheus.Label` (bd-proto/src/protos/prometheus/prompb/types.rs). -/
def s138 : List SField := [⟨1, .str, .plain⟩, ⟨2, .str, .plain⟩]

/-- `prometheus.Labels` (bd-proto/src/protos/prometheus/prompb/types.rs). -/
def s139 : List SField := [⟨1, .msg 138, .rep⟩]

/-- `prometheus.LabelMatcher` (bd-proto/src/protos/prometheus/prompb/types.rs). -/
def s140 : List SField := [⟨1, .enum, .plain⟩, ⟨2, .str, .plain⟩, ⟨3, .str, .plain⟩]

/-- `prometheus.ReadHints` (bd-proto/src/protos/prometheus/prompb/types.rs). -/
def s141 : List SField := [⟨1, .i64, .plain⟩, ⟨2, .str, .plain⟩, ⟨3, .i64, .plain⟩, ⟨4, .i64, .plain⟩, ⟨5, .str, .rep⟩, ⟨6, .bool, .plain⟩, ⟨7, .i64, .plain⟩]

/-- `prometheus.Chunk` (bd-proto/src/protos/prometheus/prompb/types.rs). -/
def s142 : List SField := [⟨1, .i64, .plain⟩, ⟨2, .i64, .plain⟩, ⟨3, .enum, .plain⟩, ⟨4, .bytes, .plain⟩]

/-- `prometheus.ChunkedSeries` (bd-proto/src/protos/prometheus/prompb/types.rs). -/
def s143 : List SField := [⟨1, .msg 138, .rep⟩, ⟨2, .msg 142, .rep⟩]

/-- `bitdrift_public.protobuf.pulse.v1.Kubelet` (bd-proto/src/protos/pulse/pulse.rs). -/
def s144 : List SField := []

/-- `bitdrift_public.protobuf.pulse.v1.PodName` (bd-proto/src/protos/pulse/pulse.rs). -/
def s145 : List SField := []

/-- `bitdrift_public.protobuf.pulse.v1.Namespace` (bd-proto/src/protos/pulse/pulse.rs). -/
def s146 : List SField := []

/-- `bitdrift_public.protobuf.pulse.v1.Service` (bd-proto/src/protos/pulse/pulse.rs). -/
def s147 : List SField := []

/-- `bitdrift_public.protobuf.pulse.v1.Deployment` (bd-proto/src/protos/pulse/pulse.rs). -/
def s148 : List SField := []

/-- `bitdrift_public.protobuf.pulse.v1.UserProvided` (bd-proto/src/protos/pulse/pulse.rs). -/
def s149 : List SField := [⟨1, .str, .plain⟩]

/-- `bitdrift_public.protobuf.pulse.v1.EntityType` (bd-proto/src/protos/pulse/pulse.rs). -/
def s150 : List SField := [⟨1, .msg 144, .one 0⟩, ⟨2, .msg 148, .one 0⟩, ⟨3, .msg 145, .one 0⟩, ⟨4, .msg 146, .one 0⟩, ⟨5, .msg 147, .one 0⟩, ⟨6, .msg 149, .one 0⟩]

/-- `bitdrift_public.protobuf.pulse.v1.ExtraMetadata` (bd-proto/src/protos/pulse/pulse.rs). -/
def s151 : List SField := [⟨1, .msg 152, .rep⟩]

/-- `bitdrift_public.protobuf.pulse.v1.Metadata` (bd-proto/src/protos/pulse/pulse.rs). -/
def s152 : List SField := [⟨2, .str, .plain⟩, ⟨3, .msg 150, .opt⟩, ⟨4, .msg 153, .rep⟩]

/-- `bitdrift_public.protobuf.pulse.v1.Metadata.Annotation` (bd-proto/src/protos/pulse/pulse.rs). -/
def s153 : List SField := [⟨1, .str, .plain⟩, ⟨2, .str, .plain⟩]

/-- `bitdrift_public.protobuf.pulse.v1.LoggingObservations` (bd-proto/src/protos/pulse/pulse.rs). -/
def s154 : List SField := [⟨1, .msg 155, .rep⟩]

/-- `bitdrift_public.protobuf.pulse.v1.LoggingObservation` (bd-proto/src/protos/pulse/pulse.rs). -/
def s155 : List SField := [⟨1, .u64, .plain⟩, ⟨2, .u64, .plain⟩, ⟨3, .msg 151, .one 0⟩]

/-- `bitdrift_public.protobuf.workflow.v1.WorkflowsConfiguration` (bd-proto/src/protos/workflow/workflow.rs). -/
def s156 : List SField := [⟨1, .msg 157, .rep⟩]

/-- `bitdrift_public.protobuf.workflow.v1.Workflow` (bd-proto/src/protos/workflow/workflow.rs). -/
def s157 : List SField := [⟨1, .str, .plain⟩, ⟨2, .msg 158, .rep⟩, ⟨3, .msg 176, .opt⟩, ⟨4, .msg 179, .opt⟩, ⟨5, .msg 180, .opt⟩]

/-- `bitdrift_public.protobuf.workflow.v1.Workflow.State` (bd-proto/src/protos/workflow/workflow.rs). -/
def s158 : List SField := [⟨1, .str, .plain⟩, ⟨2, .msg 159, .rep⟩]

/-- `bitdrift_public.protobuf.workflow.v1.Workflow.Transition` (bd-proto/src/protos/workflow/workflow.rs). -/
def s159 : List SField := [⟨1, .str, .plain⟩, ⟨2, .msg 160, .opt⟩, ⟨3, .msg 165, .rep⟩, ⟨4, .msg 161, .rep⟩]

/-- `bitdrift_public.protobuf.workflow.v1.Workflow.Rule` (bd-proto/src/protos/workflow/workflow.rs). -/
def s160 : List SField := [⟨1, .msg 163, .one 0⟩, ⟨2, .msg 164, .one 0⟩]

/-- `bitdrift_public.protobuf.workflow.v1.Workflow.TransitionExtension` (bd-proto/src/protos/workflow/workflow.rs). -/
def s161 : List SField := [⟨1, .msg 162, .one 0⟩]

/-- `bitdrift_public.protobuf.workflow.v1.Workflow.TransitionExtension.SankeyDiagramValueExtraction` (bd-proto/src/protos/workflow/workflow.rs). -/
def s162 : List SField := [⟨1, .str, .plain⟩, ⟨4, .bool, .plain⟩, ⟨2, .str, .one 0⟩, ⟨3, .msg 181, .one 0⟩]

/-- `bitdrift_public.protobuf.workflow.v1.Workflow.RuleLogMatch` (bd-proto/src/protos/workflow/workflow.rs). -/
def s163 : List SField := [⟨1, .msg 93, .opt⟩, ⟨2, .u32, .plain⟩]

/-- `bitdrift_public.protobuf.workflow.v1.Workflow.RuleTimeout` (bd-proto/src/protos/workflow/workflow.rs). -/
def s164 : List SField := [⟨1, .u64, .plain⟩]

/-- `bitdrift_public.protobuf.workflow.v1.Workflow.Action` (bd-proto/src/protos/workflow/workflow.rs). -/
def s165 : List SField := [⟨1, .msg 166, .one 0⟩, ⟨2, .msg 170, .one 0⟩, ⟨3, .msg 173, .one 0⟩, ⟨4, .msg 175, .one 0⟩]

/-- `bitdrift_public.protobuf.workflow.v1.Workflow.Action.ActionFlushBuffers` (bd-proto/src/protos/workflow/workflow.rs). -/
def s166 : List SField := [⟨1, .str, .rep⟩, ⟨2, .str, .plain⟩, ⟨3, .msg 167, .opt⟩]

/-- `bitdrift_public.protobuf.workflow.v1.Workflow.Action.ActionFlushBuffers.Streaming` (bd-proto/src/protos/workflow/workflow.rs). -/
def s167 : List SField := [⟨1, .str, .rep⟩, ⟨2, .msg 168, .rep⟩]

/-- `bitdrift_public.protobuf.workflow.v1.Workflow.Action.ActionFlushBuffers.Streaming.TerminationCriterion` (bd-proto/src/protos/workflow/workflow.rs). -/
def s168 : List SField := [⟨1, .msg 169, .one 0⟩]

/-- `bitdrift_public.protobuf.workflow.v1.Workflow.Action.ActionFlushBuffers.Streaming.TerminationCriterion.LogsCount` (bd-proto/src/protos/workflow/workflow.rs). -/
def s169 : List SField := [⟨1, .u64, .plain⟩]

/-- `bitdrift_public.protobuf.workflow.v1.Workflow.Action.ActionEmitMetric` (bd-proto/src/protos/workflow/workflow.rs). -/
def s170 : List SField := [⟨1, .str, .plain⟩, ⟨4, .msg 174, .rep⟩, ⟨2, .msg 171, .one 0⟩, ⟨5, .msg 172, .one 0⟩, ⟨3, .u32, .one 1⟩, ⟨6, .msg 181, .one 1⟩]

/-- `bitdrift_public.protobuf.workflow.v1.Workflow.Action.ActionEmitMetric.Counter` (bd-proto/src/protos/workflow/workflow.rs). -/
def s171 : List SField := []

/-- `bitdrift_public.protobuf.workflow.v1.Workflow.Action.ActionEmitMetric.Histogram` (bd-proto/src/protos/workflow/workflow.rs). -/
def s172 : List SField := []

/-- `bitdrift_public.protobuf.workflow.v1.Workflow.Action.ActionEmitSankeyDiagram` (bd-proto/src/protos/workflow/workflow.rs). -/
def s173 : List SField := [⟨1, .str, .plain⟩, ⟨2, .u32, .plain⟩, ⟨3, .msg 174, .rep⟩]

/-- `bitdrift_public.protobuf.workflow.v1.Workflow.Action.Tag` (bd-proto/src/protos/workflow/workflow.rs). -/
def s174 : List SField := [⟨1, .str, .plain⟩, ⟨2, .str, .one 0⟩, ⟨3, .msg 181, .one 0⟩]

/-- `bitdrift_public.protobuf.workflow.v1.Workflow.Action.ActionTakeScreenshot` (bd-proto/src/protos/workflow/workflow.rs). -/
def s175 : List SField := [⟨1, .str, .plain⟩]

/-- `bitdrift_public.protobuf.workflow.v1.Workflow.Execution` (bd-proto/src/protos/workflow/workflow.rs). -/
def s176 : List SField := [⟨1, .msg 177, .one 0⟩, ⟨2, .msg 178, .one 0⟩]

/-- `bitdrift_public.protobuf.workflow.v1.Workflow.Execution.ExecutionExclusive` (bd-proto/src/protos/workflow/workflow.rs). -/
def s177 : List SField := []

/-- `bitdrift_public.protobuf.workflow.v1.Workflow.Execution.ExecutionParallel` (bd-proto/src/protos/workflow/workflow.rs). -/
def s178 : List SField := []

/-- `bitdrift_public.protobuf.workflow.v1.Workflow.LimitMatchedLogsCount` (bd-proto/src/protos/workflow/workflow.rs). -/
def s179 : List SField := [⟨1, .u32, .plain⟩]

/-- `bitdrift_public.protobuf.workflow.v1.Workflow.LimitDuration` (bd-proto/src/protos/workflow/workflow.rs). -/
def s180 : List SField := [⟨2, .u64, .plain⟩]

/-- `bitdrift_public.protobuf.workflow.v1.Workflow.FieldExtracted` (bd-proto/src/protos/workflow/workflow.rs). -/
def s181 : List SField := [⟨1, .str, .plain⟩, ⟨2, .msg 182, .one 0⟩]

/-- `bitdrift_public.protobuf.workflow.v1.Workflow.FieldExtracted.Exact` (bd-proto/src/protos/workflow/workflow.rs). -/
def s182 : List SField := []

/-- `google.protobuf.Timestamp` (not in the descriptors of the repository). -/
def s183 : List SField := [⟨1, .i64, .plain⟩, ⟨2, .i32, .plain⟩]

/-- `google.protobuf.Duration` (not in the descriptors of the repository). -/
def s184 : List SField := [⟨1, .i64, .plain⟩, ⟨2, .i32, .plain⟩]

/-- `google.protobuf.Any` (not in the descriptors of the repository). -/
def s185 : List SField := [⟨1, .str, .plain⟩, ⟨2, .bytes, .plain⟩]

/-- `bitdrift_public.protobuf.client.v1.HandshakeRequest.StaticDeviceMetadataEntry` (bd-proto/src/protos/client/api.rs). -/
def s186 : List SField := [⟨1, .str, .always⟩, ⟨2, .msg 103, .always⟩]

/-- `bitdrift_public.protobuf.client.v1.HandshakeRequest.OpqaueVersionNoncesEntry` (bd-proto/src/protos/client/api.rs). -/
def s187 : List SField := [⟨1, .str, .always⟩, ⟨2, .str, .always⟩]

/-- `bitdrift_public.protobuf.client.v1.Metric.TagsEntry` (bd-proto/src/protos/client/metric.rs). -/
def s188 : List SField := [⟨1, .str, .always⟩, ⟨2, .str, .always⟩]

/-- `bitdrift_public.protobuf.client.v1.Runtime.ValuesEntry` (bd-proto/src/protos/client/runtime.rs). -/
def s189 : List SField := [⟨1, .str, .always⟩, ⟨2, .msg 65, .always⟩]

def schema : Schema := [
  s0, s1, s2, s3, s4, s5, s6, s7, s8, s9, s10, s11, s12, s13, s14, s15,
  s16, s17, s18, s19, s20, s21, s22, s23, s24, s25, s26, s27, s28, s29, s30, s31,
  s32, s33, s34, s35, s36, s37, s38, s39, s40, s41, s42, s43, s44, s45, s46, s47,
  s48, s49, s50, s51, s52, s53, s54, s55, s56, s57, s58, s59, s60, s61, s62, s63,
  s64, s65, s66, s67, s68, s69, s70, s71, s72, s73, s74, s75, s76, s77, s78, s79,
  s80, s81, s82, s83, s84, s85, s86, s87, s88, s89, s90, s91, s92, s93, s94, s95,
  s96, s97, s98, s99, s100, s101, s102, s103, s104, s105, s106, s107, s108, s109, s110, s111,
  s112, s113, s114, s115, s116, s117, s118, s119, s120, s121, s122, s123, s124, s125, s126, s127,
  s128, s129, s130, s131, s132, s133, s134, s135, s136, s137, s138, s139, s140, s141, s142, s143,
  s144, s145, s146, s147, s148, s149, s150, s151, s152, s153, s154, s155, s156, s157, s158, s159,
  s160, s161, s162, s163, s164, s165, s166, s167, s168, s169, s170, s171, s172, s173, s174, s175,
  s176, s177, s178, s179, s180, s181, s182, s183, s184, s185, s186, s187, s188, s189]

end Verif.Wire
