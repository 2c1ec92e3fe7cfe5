import Verif.Proto.Wire
/-
The 183 messages of bd-proto/src/protos, as read off the three functions of the generated code of each: the arms of `merge_from`
(tag and reading function), `compute_size` (number or literal given to it) and `write_to_with_cached_sizes` (number or literal tag,
writing function, condition).  Made by /verif/tools/protos.py, which refuses a line it does not know.  Then three messages of the
protobuf crate that are used as fields (from their definitions), and the entries of the four maps.
A field: tag read, second tag (packed fields), how it is read, number written, how it is written, how its size is counted (number, or
literal), which size function, label, default.
-/
namespace Verif.Wire

/-- `bdtail::bdtail_api::TailLogsRequest` (bd-proto/src/protos/bdtail/bdtail_api.rs:79-111): dsl_expression. -/
def m0 : List Field := [
  ⟨10, none, .str, .num 1, .str, .num 1, some .str, .plain, 0⟩]

/-- `bdtail::bdtail_api::Logs` (bd-proto/src/protos/bdtail/bdtail_api.rs:201-233): logs. -/
def m1 : List Field := [
  ⟨10, none, .bytes, .num 1, .bytes, .num 1, some .bytes, .rep, 0⟩]

/-- `bdtail::bdtail_api::InvalidRequest` (bd-proto/src/protos/bdtail/bdtail_api.rs:323-355): error_message. -/
def m2 : List Field := [
  ⟨10, none, .str, .num 1, .str, .num 1, some .str, .plain, 0⟩]

/-- `bdtail::bdtail_api::TailLogsResponse` (bd-proto/src/protos/bdtail/bdtail_api.rs:552-603): Logs, InvalidRequest. -/
def m3 : List Field := [
  ⟨10, none, .msg 1, .num 1, .msg 1, .lit 1, some (.msg 1), .one 0, 0⟩,
  ⟨18, none, .msg 2, .num 2, .msg 2, .lit 1, some (.msg 2), .one 0, 0⟩]

/-- `bdtail::bdtail_config::BdTailStream` (bd-proto/src/protos/bdtail/bdtail_config.rs:86-128): stream_id, matcher. -/
def m4 : List Field := [
  ⟨10, none, .str, .num 1, .str, .num 1, some .str, .plain, 0⟩,
  ⟨18, none, .msg 93, .num 2, .msg 93, .lit 1, some (.msg 93), .opt, 0⟩]

/-- `bdtail::bdtail_config::BdTailConfigurations` (bd-proto/src/protos/bdtail/bdtail_config.rs:220-253): active_streams. -/
def m5 : List Field := [
  ⟨10, none, .msg 4, .num 1, .msg 4, .lit 1, some (.msg 4), .rep, 0⟩]

/-- `client::api::ClientKillFile` (bd-proto/src/protos/client/api.rs:86-128): api_key_hash, kill_until. -/
def m6 : List Field := [
  ⟨10, none, .bytes, .num 1, .bytes, .num 1, some .bytes, .plain, 0⟩,
  ⟨18, none, .msg 183, .num 2, .msg 183, .lit 1, some (.msg 183), .opt, 0⟩]

/-- `client::api::HandshakeRequest` (bd-proto/src/protos/client/api.rs:248-360): static_device_metadata, configuration_version_nonce, runtime_version_nonce, opqaue_version_nonces, previous_disconnect_reason. -/
def m7 : List Field := [
  ⟨10, none, .msg 186, .tag 10, .msg 186, .lit 1, some (.msg 186), .map, 0⟩,
  ⟨26, none, .str, .num 3, .str, .num 3, some .str, .plain, 0⟩,
  ⟨34, none, .str, .num 4, .str, .num 4, some .str, .plain, 0⟩,
  ⟨42, none, .msg 187, .tag 42, .msg 187, .lit 1, some (.msg 187), .map, 0⟩,
  ⟨50, none, .str, .num 6, .str, .num 6, some .str, .plain, 0⟩]

/-- `client::api::OpaqueConfigurationUpdate` (bd-proto/src/protos/client/api.rs:458-500): version_nonce, configuration. -/
def m8 : List Field := [
  ⟨10, none, .str, .num 1, .str, .num 1, some .str, .plain, 0⟩,
  ⟨18, none, .msg 185, .num 2, .msg 185, .lit 1, some (.msg 185), .opt, 0⟩]

/-- `client::api::OpaqueConfigurationUpdateAck` (bd-proto/src/protos/client/api.rs:599-641): type_url, ack. -/
def m9 : List Field := [
  ⟨10, none, .str, .num 1, .str, .num 1, some .str, .plain, 0⟩,
  ⟨18, none, .msg 17, .num 2, .msg 17, .lit 1, some (.msg 17), .opt, 0⟩]

/-- `client::api::LogUploadIntentRequest` (bd-proto/src/protos/client/api.rs:820-906): log_count, byte_count, buffer_id, intent_uuid, session_id, WorkflowActionUpload. -/
def m10 : List Field := [
  ⟨8, none, .u32, .num 1, .u32, .num 1, some .u32, .plain, 0⟩,
  ⟨16, none, .u32, .num 2, .u32, .num 2, some .u32, .plain, 0⟩,
  ⟨26, none, .str, .num 3, .str, .num 3, some .str, .plain, 0⟩,
  ⟨34, none, .str, .num 4, .str, .num 4, some .str, .plain, 0⟩,
  ⟨50, none, .str, .num 6, .str, .num 6, some .str, .plain, 0⟩,
  ⟨42, none, .msg 11, .num 5, .msg 11, .lit 1, some (.msg 11), .one 0, 0⟩]

/-- `client::api::log_upload_intent_request::WorkflowActionUpload` (bd-proto/src/protos/client/api.rs:1031-1063): workflow_action_ids. -/
def m11 : List Field := [
  ⟨10, none, .str, .num 1, .str, .num 1, some .str, .rep, 0⟩]

/-- `client::api::LogUploadIntentResponse` (bd-proto/src/protos/client/api.rs:1269-1329): intent_uuid, UploadImmediately, Drop. -/
def m12 : List Field := [
  ⟨10, none, .str, .num 1, .str, .num 1, some .str, .plain, 0⟩,
  ⟨18, none, .msg 13, .num 2, .msg 13, .lit 1, some (.msg 13), .one 0, 0⟩,
  ⟨26, none, .msg 14, .num 3, .msg 14, .lit 1, some (.msg 14), .one 0, 0⟩]

/-- `client::api::log_upload_intent_response::UploadImmediately` (bd-proto/src/protos/client/api.rs:1441-1464) -/
def m13 : List Field := []

/-- `client::api::log_upload_intent_response::Drop` (bd-proto/src/protos/client/api.rs:1544-1567) -/
def m14 : List Field := []

/-- `client::api::LogUploadRequest` (bd-proto/src/protos/client/api.rs:1670-1720): upload_uuid, logs, buffer_uuid. -/
def m15 : List Field := [
  ⟨10, none, .str, .num 1, .str, .num 1, some .str, .plain, 0⟩,
  ⟨18, none, .bytes, .num 2, .bytes, .num 2, some .bytes, .rep, 0⟩,
  ⟨26, none, .str, .num 3, .str, .num 3, some .str, .plain, 0⟩]

/-- `client::api::PingRequest` (bd-proto/src/protos/client/api.rs:1806-1829) -/
def m16 : List Field := []

/-- `client::api::ConfigurationUpdateAck` (bd-proto/src/protos/client/api.rs:1924-1966): last_applied_version_nonce, nack. -/
def m17 : List Field := [
  ⟨10, none, .str, .num 1, .str, .num 1, some .str, .plain, 0⟩,
  ⟨18, none, .msg 18, .num 2, .msg 18, .lit 1, some (.msg 18), .opt, 0⟩]

/-- `client::api::configuration_update_ack::Nack` (bd-proto/src/protos/client/api.rs:2067-2108): version_nonce, error_details. -/
def m18 : List Field := [
  ⟨10, none, .str, .num 1, .str, .num 1, some .str, .plain, 0⟩,
  ⟨18, none, .str, .num 2, .str, .num 2, some .str, .plain, 0⟩]

/-- `client::api::ApiRequest` (bd-proto/src/protos/client/api.rs:2812-2953): Handshake, LogUploadIntent, LogUpload, StatsUpload, Ping, ConfigurationUpdateAck, RuntimeUpdateAck, OpaqueConfigurationUpdateAck, OpaqueUpload, SankeyPathUpload, SankeyIntent. -/
def m19 : List Field := [
  ⟨10, none, .msg 7, .num 1, .msg 7, .lit 1, some (.msg 7), .one 0, 0⟩,
  ⟨58, none, .msg 10, .num 7, .msg 10, .lit 1, some (.msg 10), .one 0, 0⟩,
  ⟨18, none, .msg 15, .num 2, .msg 15, .lit 1, some (.msg 15), .one 0, 0⟩,
  ⟨50, none, .msg 27, .num 6, .msg 27, .lit 1, some (.msg 27), .one 0, 0⟩,
  ⟨26, none, .msg 16, .num 3, .msg 16, .lit 1, some (.msg 16), .one 0, 0⟩,
  ⟨34, none, .msg 17, .num 4, .msg 17, .lit 1, some (.msg 17), .one 0, 0⟩,
  ⟨42, none, .msg 17, .num 5, .msg 17, .lit 1, some (.msg 17), .one 0, 0⟩,
  ⟨66, none, .msg 9, .num 8, .msg 9, .lit 1, some (.msg 9), .one 0, 0⟩,
  ⟨74, none, .msg 31, .num 9, .msg 31, .lit 1, some (.msg 31), .one 0, 0⟩,
  ⟨82, none, .msg 20, .num 10, .msg 20, .lit 1, some (.msg 20), .one 0, 0⟩,
  ⟨90, none, .msg 22, .num 11, .msg 22, .lit 1, some (.msg 22), .one 0, 0⟩]

/-- `client::api::SankeyPathUploadRequest` (bd-proto/src/protos/client/api.rs:3121-3181): upload_uuid, id, path_id, nodes. -/
def m20 : List Field := [
  ⟨34, none, .str, .num 4, .str, .num 4, some .str, .plain, 0⟩,
  ⟨10, none, .str, .num 1, .str, .num 1, some .str, .plain, 0⟩,
  ⟨18, none, .str, .num 2, .str, .num 2, some .str, .plain, 0⟩,
  ⟨26, none, .msg 21, .num 3, .msg 21, .lit 1, some (.msg 21), .rep, 0⟩]

/-- `client::api::sankey_path_upload_request::Node` (bd-proto/src/protos/client/api.rs:3279-3311): extracted_value. -/
def m21 : List Field := [
  ⟨10, none, .str, .num 1, .str, .num 1, some .str, .plain, 0⟩]

/-- `client::api::SankeyIntentRequest` (bd-proto/src/protos/client/api.rs:3416-3466): intent_uuid, path_id, sankey_diagram_id. -/
def m22 : List Field := [
  ⟨10, none, .str, .num 1, .str, .num 1, some .str, .plain, 0⟩,
  ⟨18, none, .str, .num 2, .str, .num 2, some .str, .plain, 0⟩,
  ⟨26, none, .str, .num 3, .str, .num 3, some .str, .plain, 0⟩]

/-- `client::api::HandshakeResponse` (bd-proto/src/protos/client/api.rs:3560-3593): stream_settings. -/
def m23 : List Field := [
  ⟨10, none, .msg 24, .num 1, .msg 24, .lit 1, some (.msg 24), .opt, 0⟩]

/-- `client::api::handshake_response::StreamSettings` (bd-proto/src/protos/client/api.rs:3685-3718): ping_interval. -/
def m24 : List Field := [
  ⟨10, none, .msg 184, .num 1, .msg 184, .lit 1, some (.msg 184), .opt, 0⟩]

/-- `client::api::RateLimited` (bd-proto/src/protos/client/api.rs:3801-3824) -/
def m25 : List Field := []

/-- `client::api::LogUploadResponse` (bd-proto/src/protos/client/api.rs:3933-3993): upload_uuid, error, logs_dropped, rate_limited. -/
def m26 : List Field := [
  ⟨10, none, .str, .num 1, .str, .num 1, some .str, .plain, 0⟩,
  ⟨18, none, .str, .num 2, .str, .num 2, some .str, .plain, 0⟩,
  ⟨24, none, .u32, .num 3, .u32, .num 3, some .u32, .plain, 0⟩,
  ⟨34, none, .msg 25, .num 4, .msg 25, .lit 1, some (.msg 25), .opt, 0⟩]

/-- `client::api::StatsUploadRequest` (bd-proto/src/protos/client/api.rs:4103-4155): upload_uuid, snapshot, sent_at. -/
def m27 : List Field := [
  ⟨10, none, .str, .num 1, .str, .num 1, some .str, .plain, 0⟩,
  ⟨18, none, .msg 28, .num 2, .msg 28, .lit 1, some (.msg 28), .rep, 0⟩,
  ⟨26, none, .msg 183, .num 3, .msg 183, .lit 1, some (.msg 183), .opt, 0⟩]

/-- `client::api::stats_upload_request::Snapshot` (bd-proto/src/protos/client/api.rs:4360-4419): Metrics, Aggregated. -/
def m28 : List Field := [
  ⟨10, none, .msg 61, .num 1, .msg 61, .lit 1, some (.msg 61), .one 0, 0⟩,
  ⟨18, none, .msg 29, .num 2, .msg 29, .lit 1, some (.msg 29), .one 1, 0⟩]

/-- `client::api::stats_upload_request::snapshot::Aggregated` (bd-proto/src/protos/client/api.rs:4566-4609): period_start, period_end. -/
def m29 : List Field := [
  ⟨34, none, .msg 183, .num 4, .msg 183, .lit 1, some (.msg 183), .opt, 0⟩,
  ⟨42, none, .msg 183, .num 5, .msg 183, .lit 1, some (.msg 183), .opt, 0⟩]

/-- `client::api::StatsUploadResponse` (bd-proto/src/protos/client/api.rs:4717-4767): upload_uuid, error, metrics_dropped. -/
def m30 : List Field := [
  ⟨10, none, .str, .num 1, .str, .num 1, some .str, .plain, 0⟩,
  ⟨18, none, .str, .num 2, .str, .num 2, some .str, .plain, 0⟩,
  ⟨24, none, .u32, .num 3, .u32, .num 3, some .u32, .plain, 0⟩]

/-- `client::api::OpaqueRequest` (bd-proto/src/protos/client/api.rs:4868-4910): uuid, request. -/
def m31 : List Field := [
  ⟨10, none, .str, .num 1, .str, .num 1, some .str, .plain, 0⟩,
  ⟨18, none, .msg 185, .num 2, .msg 185, .lit 1, some (.msg 185), .opt, 0⟩]

/-- `client::api::OpaqueResponse` (bd-proto/src/protos/client/api.rs:5009-5050): uuid, error. -/
def m32 : List Field := [
  ⟨10, none, .str, .num 1, .str, .num 1, some .str, .plain, 0⟩,
  ⟨18, none, .str, .num 2, .str, .num 2, some .str, .opt, 0⟩]

/-- `client::api::PongResponse` (bd-proto/src/protos/client/api.rs:5134-5157) -/
def m33 : List Field := []

/-- `client::api::ConfigurationUpdate` (bd-proto/src/protos/client/api.rs:5304-5354): version_nonce, StateOfTheWorld. -/
def m34 : List Field := [
  ⟨10, none, .str, .num 1, .str, .num 1, some .str, .plain, 0⟩,
  ⟨18, none, .msg 35, .num 2, .msg 35, .lit 1, some (.msg 35), .one 0, 0⟩]

/-- `client::api::configuration_update::StateOfTheWorld` (bd-proto/src/protos/client/api.rs:5492-5555): buffer_config_list, workflows_configuration, bdtail_configuration, filters_configuration. -/
def m35 : List Field := [
  ⟨26, none, .msg 77, .num 3, .msg 77, .lit 1, some (.msg 77), .opt, 0⟩,
  ⟨34, none, .msg 156, .num 4, .msg 156, .lit 1, some (.msg 156), .opt, 0⟩,
  ⟨50, none, .msg 5, .num 6, .msg 5, .lit 1, some (.msg 5), .opt, 0⟩,
  ⟨66, none, .msg 78, .num 8, .msg 78, .lit 1, some (.msg 78), .opt, 0⟩]

/-- `client::api::RuntimeUpdate` (bd-proto/src/protos/client/api.rs:5659-5701): version_nonce, runtime. -/
def m36 : List Field := [
  ⟨10, none, .str, .num 1, .str, .num 1, some .str, .plain, 0⟩,
  ⟨18, none, .msg 64, .num 2, .msg 64, .lit 1, some (.msg 64), .opt, 0⟩]

/-- `client::api::ErrorShutdown` (bd-proto/src/protos/client/api.rs:5800-5841): grpc_status, grpc_message. -/
def m37 : List Field := [
  ⟨8, none, .i32, .num 1, .i32, .num 1, some .i32, .plain, 0⟩,
  ⟨18, none, .str, .num 2, .str, .num 2, some .str, .plain, 0⟩]

/-- `client::api::FlushBuffers` (bd-proto/src/protos/client/api.rs:5933-5965): buffer_id_list. -/
def m38 : List Field := [
  ⟨10, none, .str, .num 1, .str, .num 1, some .str, .rep, 0⟩]

/-- `client::api::SankeyPathUploadResponse` (bd-proto/src/protos/client/api.rs:6062-6103): upload_uuid, error. -/
def m39 : List Field := [
  ⟨10, none, .str, .num 1, .str, .num 1, some .str, .plain, 0⟩,
  ⟨18, none, .str, .num 2, .str, .num 2, some .str, .plain, 0⟩]

/-- `client::api::SankeyIntentResponse` (bd-proto/src/protos/client/api.rs:6310-6370): intent_uuid, UploadImmediately, Drop. -/
def m40 : List Field := [
  ⟨10, none, .str, .num 1, .str, .num 1, some .str, .plain, 0⟩,
  ⟨26, none, .msg 41, .num 3, .msg 41, .lit 1, some (.msg 41), .one 0, 0⟩,
  ⟨34, none, .msg 42, .num 4, .msg 42, .lit 1, some (.msg 42), .one 0, 0⟩]

/-- `client::api::sankey_intent_response::UploadImmediately` (bd-proto/src/protos/client/api.rs:6482-6505) -/
def m41 : List Field := []

/-- `client::api::sankey_intent_response::Drop` (bd-proto/src/protos/client/api.rs:6585-6608) -/
def m42 : List Field := []

/-- `client::api::ApiResponse` (bd-proto/src/protos/client/api.rs:7420-7581): Handshake, LogUpload, LogUploadIntent, StatsUpload, Pong, ConfigurationUpdate, RuntimeUpdate, ErrorShutdown, FlushBuffers, OpaqueConfigurationUpdate, OpaqueUpload, SankeyDiagramUpload, SankeyIntentResponse. -/
def m43 : List Field := [
  ⟨10, none, .msg 23, .num 1, .msg 23, .lit 1, some (.msg 23), .one 0, 0⟩,
  ⟨18, none, .msg 26, .num 2, .msg 26, .lit 1, some (.msg 26), .one 0, 0⟩,
  ⟨66, none, .msg 12, .num 8, .msg 12, .lit 1, some (.msg 12), .one 0, 0⟩,
  ⟨58, none, .msg 30, .num 7, .msg 30, .lit 1, some (.msg 30), .one 0, 0⟩,
  ⟨26, none, .msg 33, .num 3, .msg 33, .lit 1, some (.msg 33), .one 0, 0⟩,
  ⟨34, none, .msg 34, .num 4, .msg 34, .lit 1, some (.msg 34), .one 0, 0⟩,
  ⟨42, none, .msg 36, .num 5, .msg 36, .lit 1, some (.msg 36), .one 0, 0⟩,
  ⟨50, none, .msg 37, .num 6, .msg 37, .lit 1, some (.msg 37), .one 0, 0⟩,
  ⟨74, none, .msg 38, .num 9, .msg 38, .lit 1, some (.msg 38), .one 0, 0⟩,
  ⟨82, none, .msg 8, .num 10, .msg 8, .lit 1, some (.msg 8), .one 0, 0⟩,
  ⟨90, none, .msg 32, .num 11, .msg 32, .lit 1, some (.msg 32), .one 0, 0⟩,
  ⟨98, none, .msg 39, .num 12, .msg 39, .lit 1, some (.msg 39), .one 0, 0⟩,
  ⟨106, none, .msg 40, .num 13, .msg 40, .lit 1, some (.msg 40), .one 0, 0⟩]

/-- `client::matcher::Matcher` (bd-proto/src/protos/client/matcher.rs:385-475): Always, And, Or, String, Integer, Consistent. -/
def m44 : List Field := [
  ⟨8, none, .bool, .num 1, .bool, .fix 1 1, none, .one 0, 0⟩,
  ⟨18, none, .msg 46, .num 2, .msg 46, .lit 1, some (.msg 46), .one 0, 0⟩,
  ⟨26, none, .msg 46, .num 3, .msg 46, .lit 1, some (.msg 46), .one 0, 0⟩,
  ⟨34, none, .msg 47, .num 4, .msg 47, .lit 1, some (.msg 47), .one 0, 0⟩,
  ⟨42, none, .msg 48, .num 5, .msg 48, .lit 1, some (.msg 48), .one 0, 0⟩,
  ⟨50, none, .msg 49, .num 6, .msg 49, .lit 1, some (.msg 49), .one 0, 0⟩]

/-- `client::matcher::matcher::Key` (bd-proto/src/protos/client/matcher.rs:655-695): StaticDeviceMetadata. -/
def m45 : List Field := [
  ⟨10, none, .str, .num 1, .str, .num 1, some .str, .one 0, 0⟩]

/-- `client::matcher::matcher::MatcherList` (bd-proto/src/protos/client/matcher.rs:812-845): matchers. -/
def m46 : List Field := [
  ⟨10, none, .msg 44, .num 1, .msg 44, .lit 1, some (.msg 44), .rep, 0⟩]

/-- `client::matcher::matcher::StringMatch` (bd-proto/src/protos/client/matcher.rs:949-1000): key, value, match_type. -/
def m47 : List Field := [
  ⟨10, none, .msg 45, .num 1, .msg 45, .lit 1, some (.msg 45), .opt, 0⟩,
  ⟨18, none, .str, .num 2, .str, .num 2, some .str, .plain, 0⟩,
  ⟨24, none, .enum, .num 3, .enum, .num 3, some .enum, .plain, 0⟩]

/-- `client::matcher::matcher::IntMatch` (bd-proto/src/protos/client/matcher.rs:1168-1219): key, value, match_type. -/
def m48 : List Field := [
  ⟨10, none, .msg 45, .num 1, .msg 45, .lit 1, some (.msg 45), .opt, 0⟩,
  ⟨16, none, .i64, .num 2, .i64, .num 2, some .i64, .plain, 0⟩,
  ⟨24, none, .enum, .num 3, .enum, .num 3, some .enum, .plain, 0⟩]

/-- `client::matcher::matcher::ConsistentHashMatch` (bd-proto/src/protos/client/matcher.rs:1404-1464): key, seed, numerator, denominator. -/
def m49 : List Field := [
  ⟨10, none, .msg 45, .num 1, .msg 45, .lit 1, some (.msg 45), .opt, 0⟩,
  ⟨16, none, .u64, .num 2, .u64, .num 2, some .u64, .plain, 0⟩,
  ⟨24, none, .u64, .num 3, .u64, .num 3, some .u64, .plain, 0⟩,
  ⟨32, none, .u64, .num 4, .u64, .num 4, some .u64, .plain, 0⟩]

/-- `client::matcher::RootMatcher` (bd-proto/src/protos/client/matcher.rs:1676-1737): matcher, ClientTarget, ServerTarget. -/
def m50 : List Field := [
  ⟨26, none, .msg 44, .num 3, .msg 44, .lit 1, some (.msg 44), .opt, 0⟩,
  ⟨10, none, .msg 51, .num 1, .msg 51, .lit 1, some (.msg 51), .one 0, 0⟩,
  ⟨18, none, .msg 52, .num 2, .msg 52, .lit 1, some (.msg 52), .one 0, 0⟩]

/-- `client::matcher::root_matcher::ClientTarget` (bd-proto/src/protos/client/matcher.rs:1849-1872) -/
def m51 : List Field := []

/-- `client::matcher::root_matcher::ServerTarget` (bd-proto/src/protos/client/matcher.rs:1952-1975) -/
def m52 : List Field := []

/-- `client::metric::PendingAggregationIndex` (bd-proto/src/protos/client/metric.rs:79-112): pending_files. -/
def m53 : List Field := [
  ⟨10, none, .msg 54, .num 1, .msg 54, .lit 1, some (.msg 54), .rep, 0⟩]

/-- `client::metric::pending_aggregation_index::PendingFile` (bd-proto/src/protos/client/metric.rs:218-270): name, period_start, period_end. -/
def m54 : List Field := [
  ⟨10, none, .str, .num 1, .str, .num 1, some .str, .plain, 0⟩,
  ⟨18, none, .msg 183, .num 2, .msg 183, .lit 1, some (.msg 183), .opt, 0⟩,
  ⟨26, none, .msg 183, .num 3, .msg 183, .lit 1, some (.msg 183), .opt, 0⟩]

/-- `client::metric::Counter` (bd-proto/src/protos/client/metric.rs:372-413): value_deprecated, value. -/
def m55 : List Field := [
  ⟨8, none, .u32, .num 1, .u32, .num 1, some .u32, .plain, 0⟩,
  ⟨16, none, .u64, .num 2, .u64, .num 2, some .u64, .plain, 0⟩]

/-- `client::metric::FixedBucketHistogram` (bd-proto/src/protos/client/metric.rs:519-570): fixed_buckets, count, sum. -/
def m56 : List Field := [
  ⟨10, none, .msg 57, .num 1, .msg 57, .lit 1, some (.msg 57), .rep, 0⟩,
  ⟨16, none, .u64, .num 2, .u64, .num 2, some .u64, .plain, 0⟩,
  ⟨25, none, .f64, .num 3, .f64, .fix 1 8, none, .plain, 0⟩]

/-- `client::metric::fixed_bucket_histogram::Bucket` (bd-proto/src/protos/client/metric.rs:673-714): less_than_equal_to, count. -/
def m57 : List Field := [
  ⟨9, none, .f64, .num 1, .f64, .fix 1 8, none, .plain, 0⟩,
  ⟨16, none, .u64, .num 2, .u64, .num 2, some .u64, .plain, 0⟩]

/-- `client::metric::DDSketchHistogram` (bd-proto/src/protos/client/metric.rs:807-839): serialized. -/
def m58 : List Field := [
  ⟨10, none, .bytes, .num 1, .bytes, .num 1, some .bytes, .plain, 0⟩]

/-- `client::metric::InlineHistogramValues` (bd-proto/src/protos/client/metric.rs:929-960): values. -/
def m59 : List Field := [
  ⟨10, some 9, .f64, .num 1, .f64, .num 1, some .f64, .packed, 0⟩]

/-- `client::metric::Metric` (bd-proto/src/protos/client/metric.rs:1284-1394): name, tags, Counter, FixedBucketHistogramDeprecated, DdsketchHistogram, InlineHistogramValues. -/
def m60 : List Field := [
  ⟨10, none, .str, .num 1, .str, .num 1, some .str, .plain, 0⟩,
  ⟨18, none, .msg 188, .tag 18, .msg 188, .lit 1, some (.msg 188), .map, 0⟩,
  ⟨26, none, .msg 55, .num 3, .msg 55, .lit 1, some (.msg 55), .one 0, 0⟩,
  ⟨34, none, .msg 56, .num 4, .msg 56, .lit 1, some (.msg 56), .one 0, 0⟩,
  ⟨42, none, .msg 58, .num 5, .msg 58, .lit 1, some (.msg 58), .one 0, 0⟩,
  ⟨50, none, .msg 59, .num 6, .msg 59, .lit 1, some (.msg 59), .one 0, 0⟩]

/-- `client::metric::MetricsList` (bd-proto/src/protos/client/metric.rs:1519-1552): metric. -/
def m61 : List Field := [
  ⟨10, none, .msg 60, .num 1, .msg 60, .lit 1, some (.msg 60), .rep, 0⟩]

/-- `client::runtime::RuntimeSet` (bd-proto/src/protos/client/runtime.rs:79-112): runtimes. -/
def m62 : List Field := [
  ⟨10, none, .msg 63, .num 1, .msg 63, .lit 1, some (.msg 63), .rep, 0⟩]

/-- `client::runtime::runtime_set::RuntimeAndMatcher` (bd-proto/src/protos/client/runtime.rs:211-254): matcher, runtime. -/
def m63 : List Field := [
  ⟨10, none, .msg 44, .num 1, .msg 44, .lit 1, some (.msg 44), .opt, 0⟩,
  ⟨18, none, .msg 64, .num 2, .msg 64, .lit 1, some (.msg 64), .opt, 0⟩]

/-- `client::runtime::Runtime` (bd-proto/src/protos/client/runtime.rs:347-402): values. -/
def m64 : List Field := [
  ⟨10, none, .msg 189, .tag 10, .msg 189, .lit 1, some (.msg 189), .map, 0⟩]

/-- `client::runtime::runtime::Value` (bd-proto/src/protos/client/runtime.rs:603-661): BoolValue, UintValue, StringValue. -/
def m65 : List Field := [
  ⟨8, none, .bool, .num 1, .bool, .fix 1 1, none, .one 0, 0⟩,
  ⟨16, none, .u32, .num 2, .u32, .num 2, some .u32, .one 0, 0⟩,
  ⟨26, none, .str, .num 3, .str, .num 3, some .str, .one 0, 0⟩]

/-- `config::v1::config::LogMatcher` (bd-proto/src/protos/config/v1/config.rs:298-369): BaseMatcher, OrMatcher, AndMatcher, NotMatcher. -/
def m66 : List Field := [
  ⟨10, none, .msg 67, .num 1, .msg 67, .lit 1, some (.msg 67), .one 0, 0⟩,
  ⟨18, none, .msg 73, .num 2, .msg 73, .lit 1, some (.msg 73), .one 0, 0⟩,
  ⟨26, none, .msg 73, .num 3, .msg 73, .lit 1, some (.msg 73), .one 0, 0⟩,
  ⟨34, none, .msg 66, .num 4, .msg 66, .lit 1, some (.msg 66), .one 0, 0⟩]

/-- `config::v1::config::log_matcher::BaseLogMatcher` (bd-proto/src/protos/config/v1/config.rs:768-849): LogLevelMatch, MessageMatch, TagMatch, TypeMatch, AnyMatch. -/
def m67 : List Field := [
  ⟨10, none, .msg 68, .num 1, .msg 68, .lit 1, some (.msg 68), .one 0, 0⟩,
  ⟨18, none, .msg 69, .num 2, .msg 69, .lit 1, some (.msg 69), .one 0, 0⟩,
  ⟨26, none, .msg 70, .num 3, .msg 70, .lit 1, some (.msg 70), .one 0, 0⟩,
  ⟨42, none, .msg 72, .num 5, .msg 72, .lit 1, some (.msg 72), .one 0, 0⟩,
  ⟨34, none, .msg 71, .num 4, .msg 71, .lit 1, some (.msg 71), .one 0, 0⟩]

/-- `config::v1::config::log_matcher::base_log_matcher::LogLevelMatch` (bd-proto/src/protos/config/v1/config.rs:983-1024): operator, log_level. -/
def m68 : List Field := [
  ⟨8, none, .enum, .num 1, .enum, .num 1, some .enum, .plain, 0⟩,
  ⟨16, none, .enum, .num 2, .enum, .num 2, some .enum, .plain, 0⟩]

/-- `config::v1::config::log_matcher::base_log_matcher::MessageMatch` (bd-proto/src/protos/config/v1/config.rs:1285-1326): match_type, match_value. -/
def m69 : List Field := [
  ⟨8, none, .enum, .num 1, .enum, .num 1, some .enum, .plain, 0⟩,
  ⟨18, none, .str, .num 2, .str, .num 2, some .str, .plain, 0⟩]

/-- `config::v1::config::log_matcher::base_log_matcher::TagMatch` (bd-proto/src/protos/config/v1/config.rs:1432-1482): match_type, tag_key, match_value. -/
def m70 : List Field := [
  ⟨8, none, .enum, .num 1, .enum, .num 1, some .enum, .plain, 0⟩,
  ⟨18, none, .str, .num 2, .str, .num 2, some .str, .plain, 0⟩,
  ⟨26, none, .str, .num 3, .str, .num 3, some .str, .plain, 0⟩]

/-- `config::v1::config::log_matcher::base_log_matcher::AnyMatch` (bd-proto/src/protos/config/v1/config.rs:1568-1591) -/
def m71 : List Field := []

/-- `config::v1::config::log_matcher::base_log_matcher::TypeMatch` (bd-proto/src/protos/config/v1/config.rs:1679-1711): type_. -/
def m72 : List Field := [
  ⟨8, none, .u32, .num 1, .u32, .num 1, some .u32, .plain, 0⟩]

/-- `config::v1::config::log_matcher::MatcherList` (bd-proto/src/protos/config/v1/config.rs:1869-1902): matcher. -/
def m73 : List Field := [
  ⟨10, none, .msg 66, .num 1, .msg 66, .lit 1, some (.msg 66), .rep, 0⟩]

/-- `config::v1::config::BufferConfig` (bd-proto/src/protos/config/v1/config.rs:2028-2108): name, id, filters, type_, buffer_sizes, context_matcher. -/
def m74 : List Field := [
  ⟨10, none, .str, .num 1, .str, .num 1, some .str, .plain, 0⟩,
  ⟨18, none, .str, .num 2, .str, .num 2, some .str, .plain, 0⟩,
  ⟨26, none, .msg 75, .num 3, .msg 75, .lit 1, some (.msg 75), .rep, 0⟩,
  ⟨32, none, .enum, .num 4, .enum, .num 4, some .enum, .plain, 0⟩,
  ⟨42, none, .msg 76, .num 5, .msg 76, .lit 1, some (.msg 76), .opt, 0⟩,
  ⟨50, none, .msg 50, .num 6, .msg 50, .lit 1, some (.msg 50), .opt, 0⟩]

/-- `config::v1::config::buffer_config::BufferFilter` (bd-proto/src/protos/config/v1/config.rs:2224-2275): name, id, filter. -/
def m75 : List Field := [
  ⟨10, none, .str, .num 1, .str, .num 1, some .str, .plain, 0⟩,
  ⟨18, none, .str, .num 2, .str, .num 2, some .str, .plain, 0⟩,
  ⟨26, none, .msg 66, .num 3, .msg 66, .lit 1, some (.msg 66), .opt, 0⟩]

/-- `config::v1::config::buffer_config::BufferSizes` (bd-proto/src/protos/config/v1/config.rs:2376-2417): volatile_buffer_size_bytes, non_volatile_buffer_size_bytes. -/
def m76 : List Field := [
  ⟨8, none, .u32, .num 1, .u32, .num 1, some .u32, .plain, 0⟩,
  ⟨16, none, .u32, .num 2, .u32, .num 2, some .u32, .plain, 0⟩]

/-- `config::v1::config::BufferConfigList` (bd-proto/src/protos/config/v1/config.rs:2572-2605): buffer_config. -/
def m77 : List Field := [
  ⟨10, none, .msg 74, .num 1, .msg 74, .lit 1, some (.msg 74), .rep, 0⟩]

/-- `filter::filter::FiltersConfiguration` (bd-proto/src/protos/filter/filter.rs:79-112): filters. -/
def m78 : List Field := [
  ⟨10, none, .msg 79, .num 1, .msg 79, .lit 1, some (.msg 79), .rep, 0⟩]

/-- `filter::filter::Filter` (bd-proto/src/protos/filter/filter.rs:209-252): matcher, transforms. -/
def m79 : List Field := [
  ⟨10, none, .msg 93, .num 1, .msg 93, .lit 1, some (.msg 93), .opt, 0⟩,
  ⟨18, none, .msg 80, .num 2, .msg 80, .lit 1, some (.msg 80), .rep, 0⟩]

/-- `filter::filter::filter::Transform` (bd-proto/src/protos/filter/filter.rs:565-636): CaptureField, SetField, RemoveField, RegexMatchAndSubstituteField. -/
def m80 : List Field := [
  ⟨10, none, .msg 81, .num 1, .msg 81, .lit 1, some (.msg 81), .one 0, 0⟩,
  ⟨18, none, .msg 82, .num 2, .msg 82, .lit 1, some (.msg 82), .one 0, 0⟩,
  ⟨26, none, .msg 85, .num 3, .msg 85, .lit 1, some (.msg 85), .one 0, 0⟩,
  ⟨34, none, .msg 86, .num 4, .msg 86, .lit 1, some (.msg 86), .one 0, 0⟩]

/-- `filter::filter::filter::transform::CaptureField` (bd-proto/src/protos/filter/filter.rs:760-792): name. -/
def m81 : List Field := [
  ⟨10, none, .str, .num 1, .str, .num 1, some .str, .plain, 0⟩]

/-- `filter::filter::filter::transform::SetField` (bd-proto/src/protos/filter/filter.rs:903-963): name, value, field_type, allow_override. -/
def m82 : List Field := [
  ⟨10, none, .str, .num 1, .str, .num 1, some .str, .plain, 0⟩,
  ⟨18, none, .msg 83, .num 2, .msg 83, .lit 1, some (.msg 83), .opt, 0⟩,
  ⟨24, none, .enum, .num 3, .enum, .num 3, some .enum, .plain, 0⟩,
  ⟨32, none, .bool, .num 4, .bool, .fix 1 1, none, .plain, 0⟩]

/-- `filter::filter::filter::transform::set_field::SetFieldValue` (bd-proto/src/protos/filter/filter.rs:1167-1217): StringValue, ExistingField. -/
def m83 : List Field := [
  ⟨10, none, .str, .num 1, .str, .num 1, some .str, .one 0, 0⟩,
  ⟨18, none, .msg 84, .num 2, .msg 84, .lit 1, some (.msg 84), .one 0, 0⟩]

/-- `filter::filter::filter::transform::set_field::set_field_value::ExistingField` (bd-proto/src/protos/filter/filter.rs:1335-1367): name. -/
def m84 : List Field := [
  ⟨10, none, .str, .num 1, .str, .num 1, some .str, .plain, 0⟩]

/-- `filter::filter::filter::transform::RemoveField` (bd-proto/src/protos/filter/filter.rs:1526-1558): name. -/
def m85 : List Field := [
  ⟨10, none, .str, .num 1, .str, .num 1, some .str, .plain, 0⟩]

/-- `filter::filter::filter::transform::RegexMatchAndSubstituteField` (bd-proto/src/protos/filter/filter.rs:1662-1712): name, pattern, substitution. -/
def m86 : List Field := [
  ⟨10, none, .str, .num 1, .str, .num 1, some .str, .plain, 0⟩,
  ⟨18, none, .str, .num 2, .str, .num 2, some .str, .plain, 0⟩,
  ⟨26, none, .str, .num 3, .str, .num 3, some .str, .plain, 0⟩]

/-- `google::api::http::Http` (bd-proto/src/protos/google/api/http.rs:79-121): rules, fully_decode_reserved_expansion. -/
def m87 : List Field := [
  ⟨10, none, .msg 88, .num 1, .msg 88, .lit 1, some (.msg 88), .rep, 0⟩,
  ⟨16, none, .bool, .num 2, .bool, .fix 1 1, none, .plain, 0⟩]

/-- `google::api::http::HttpRule` (bd-proto/src/protos/google/api/http.rs:568-691): selector, body, response_body, additional_bindings, Get, Put, Post, Delete, Patch, Custom. -/
def m88 : List Field := [
  ⟨10, none, .str, .num 1, .str, .num 1, some .str, .plain, 0⟩,
  ⟨58, none, .str, .num 7, .str, .num 7, some .str, .plain, 0⟩,
  ⟨98, none, .str, .num 12, .str, .num 12, some .str, .plain, 0⟩,
  ⟨90, none, .msg 88, .num 11, .msg 88, .lit 1, some (.msg 88), .rep, 0⟩,
  ⟨18, none, .str, .num 2, .str, .num 2, some .str, .one 0, 0⟩,
  ⟨26, none, .str, .num 3, .str, .num 3, some .str, .one 0, 0⟩,
  ⟨34, none, .str, .num 4, .str, .num 4, some .str, .one 0, 0⟩,
  ⟨42, none, .str, .num 5, .str, .num 5, some .str, .one 0, 0⟩,
  ⟨50, none, .str, .num 6, .str, .num 6, some .str, .one 0, 0⟩,
  ⟨66, none, .msg 89, .num 8, .msg 89, .lit 1, some (.msg 89), .one 0, 0⟩]

/-- `google::api::http::CustomHttpPattern` (bd-proto/src/protos/google/api/http.rs:838-879): kind, path. -/
def m89 : List Field := [
  ⟨10, none, .str, .num 1, .str, .num 1, some .str, .plain, 0⟩,
  ⟨18, none, .str, .num 2, .str, .num 2, some .str, .plain, 0⟩]

/-- `insight::insight::InsightsConfiguration` (bd-proto/src/protos/insight/insight.rs:79-112): insights. -/
def m90 : List Field := [
  ⟨10, none, .msg 91, .num 1, .msg 91, .lit 1, some (.msg 91), .rep, 0⟩]

/-- `insight::insight::Insight` (bd-proto/src/protos/insight/insight.rs:253-294): LogField. -/
def m91 : List Field := [
  ⟨10, none, .msg 92, .num 1, .msg 92, .lit 1, some (.msg 92), .one 0, 0⟩]

/-- `insight::insight::insight::LogField` (bd-proto/src/protos/insight/insight.rs:409-441): name. -/
def m92 : List Field := [
  ⟨10, none, .str, .num 1, .str, .num 1, some .str, .plain, 0⟩]

/-- `log_matcher::log_matcher::LogMatcher` (bd-proto/src/protos/log_matcher/log_matcher.rs:298-369): BaseMatcher, OrMatcher, AndMatcher, NotMatcher. -/
def m93 : List Field := [
  ⟨10, none, .msg 94, .num 1, .msg 94, .lit 1, some (.msg 94), .one 0, 0⟩,
  ⟨18, none, .msg 101, .num 2, .msg 101, .lit 1, some (.msg 101), .one 0, 0⟩,
  ⟨26, none, .msg 101, .num 3, .msg 101, .lit 1, some (.msg 101), .one 0, 0⟩,
  ⟨34, none, .msg 93, .num 4, .msg 93, .lit 1, some (.msg 93), .one 0, 0⟩]

/-- `log_matcher::log_matcher::log_matcher::BaseLogMatcher` (bd-proto/src/protos/log_matcher/log_matcher.rs:600-651): MessageMatch, TagMatch. -/
def m94 : List Field := [
  ⟨10, none, .msg 98, .num 1, .msg 98, .lit 1, some (.msg 98), .one 0, 0⟩,
  ⟨18, none, .msg 100, .num 2, .msg 100, .lit 1, some (.msg 100), .one 0, 0⟩]

/-- `log_matcher::log_matcher::log_matcher::base_log_matcher::StringValueMatch` (bd-proto/src/protos/log_matcher/log_matcher.rs:776-817): operator, match_value. -/
def m95 : List Field := [
  ⟨8, none, .enum, .num 1, .enum, .num 1, some .enum, .plain, 0⟩,
  ⟨18, none, .str, .num 2, .str, .num 2, some .str, .plain, 0⟩]

/-- `log_matcher::log_matcher::log_matcher::base_log_matcher::IntValueMatch` (bd-proto/src/protos/log_matcher/log_matcher.rs:916-957): operator, match_value. -/
def m96 : List Field := [
  ⟨8, none, .enum, .num 1, .enum, .num 1, some .enum, .plain, 0⟩,
  ⟨16, none, .i32, .num 2, .i32, .num 2, some .i32, .plain, 0⟩]

/-- `log_matcher::log_matcher::log_matcher::base_log_matcher::SemVerValueMatch` (bd-proto/src/protos/log_matcher/log_matcher.rs:1056-1097): operator, match_value. -/
def m97 : List Field := [
  ⟨8, none, .enum, .num 1, .enum, .num 1, some .enum, .plain, 0⟩,
  ⟨18, none, .str, .num 2, .str, .num 2, some .str, .plain, 0⟩]

/-- `log_matcher::log_matcher::log_matcher::base_log_matcher::MessageMatch` (bd-proto/src/protos/log_matcher/log_matcher.rs:1189-1222): string_value_match. -/
def m98 : List Field := [
  ⟨10, none, .msg 95, .num 1, .msg 95, .lit 1, some (.msg 95), .opt, 0⟩]

/-- `log_matcher::log_matcher::log_matcher::base_log_matcher::IsSetMatch` (bd-proto/src/protos/log_matcher/log_matcher.rs:1304-1327) -/
def m99 : List Field := []

/-- `log_matcher::log_matcher::log_matcher::base_log_matcher::TagMatch` (bd-proto/src/protos/log_matcher/log_matcher.rs:1642-1722): tag_key, StringValueMatch, IntValueMatch, SemVerValueMatch, IsSetMatch. -/
def m100 : List Field := [
  ⟨10, none, .str, .num 1, .str, .num 1, some .str, .plain, 0⟩,
  ⟨18, none, .msg 95, .num 2, .msg 95, .lit 1, some (.msg 95), .one 0, 0⟩,
  ⟨26, none, .msg 96, .num 3, .msg 96, .lit 1, some (.msg 96), .one 0, 0⟩,
  ⟨34, none, .msg 97, .num 4, .msg 97, .lit 1, some (.msg 97), .one 0, 0⟩,
  ⟨42, none, .msg 99, .num 5, .msg 99, .lit 1, some (.msg 99), .one 0, 0⟩]

/-- `log_matcher::log_matcher::log_matcher::MatcherList` (bd-proto/src/protos/log_matcher/log_matcher.rs:1943-1976): log_matchers. -/
def m101 : List Field := [
  ⟨10, none, .msg 93, .num 1, .msg 93, .lit 1, some (.msg 93), .rep, 0⟩]

/-- `logging::payload::BinaryData` (bd-proto/src/protos/logging/payload.rs:86-127): type_, payload. -/
def m102 : List Field := [
  ⟨10, none, .str, .num 1, .str, .num 1, some .str, .opt, 0⟩,
  ⟨18, none, .bytes, .num 2, .bytes, .num 2, some .bytes, .plain, 0⟩]

/-- `logging::payload::Data` (bd-proto/src/protos/logging/payload.rs:325-375): StringData, BinaryData. -/
def m103 : List Field := [
  ⟨10, none, .str, .num 1, .str, .num 1, some .str, .one 0, 0⟩,
  ⟨18, none, .msg 102, .num 2, .msg 102, .lit 1, some (.msg 102), .one 0, 0⟩]

/-- `mme::service::Metric` (bd-proto/src/protos/mme/service.rs:128-224): name, annotations, allowlist_rules, first_read_s, last_read_s, first_written_s, last_written_s, blocklisted_at_s. -/
def m104 : List Field := [
  ⟨10, none, .str, .num 1, .str, .num 1, some .str, .plain, 0⟩,
  ⟨18, none, .msg 105, .num 2, .msg 105, .lit 1, some (.msg 105), .rep, 0⟩,
  ⟨66, none, .str, .num 8, .str, .num 8, some .str, .rep, 0⟩,
  ⟨72, none, .i64, .num 9, .i64, .num 9, some .i64, .opt, 0⟩,
  ⟨80, none, .i64, .num 10, .i64, .num 10, some .i64, .opt, 0⟩,
  ⟨88, none, .i64, .num 11, .i64, .num 11, some .i64, .plain, 0⟩,
  ⟨96, none, .i64, .num 12, .i64, .num 12, some .i64, .plain, 0⟩,
  ⟨104, none, .i64, .num 13, .i64, .num 13, some .i64, .opt, 0⟩]

/-- `mme::service::Annotation` (bd-proto/src/protos/mme/service.rs:335-376): key, value. -/
def m105 : List Field := [
  ⟨10, none, .str, .num 1, .str, .num 1, some .str, .plain, 0⟩,
  ⟨18, none, .str, .num 2, .str, .num 2, some .str, .plain, 0⟩]

/-- `mme::service::LabelMatcher` (bd-proto/src/protos/mme/service.rs:482-532): label, value, match_type. -/
def m106 : List Field := [
  ⟨10, none, .str, .num 1, .str, .num 1, some .str, .plain, 0⟩,
  ⟨18, none, .str, .num 2, .str, .num 2, some .str, .plain, 0⟩,
  ⟨24, none, .enum, .num 3, .enum, .num 3, some .enum, .plain, 0⟩]

/-- `mme::service::Matcher` (bd-proto/src/protos/mme/service.rs:706-739): label_matchers. -/
def m107 : List Field := [
  ⟨10, none, .msg 106, .num 1, .msg 106, .lit 1, some (.msg 106), .rep, 0⟩]

/-- `mme::service::MatcherList` (bd-proto/src/protos/mme/service.rs:829-862): matchers. -/
def m108 : List Field := [
  ⟨10, none, .msg 107, .num 1, .msg 107, .lit 1, some (.msg 107), .rep, 0⟩]

/-- `mme::service::GetBlocklistRequest` (bd-proto/src/protos/mme/service.rs:973-1033): matcher, page_size, page_offset, include_source. -/
def m109 : List Field := [
  ⟨10, none, .msg 107, .num 1, .msg 107, .lit 1, some (.msg 107), .opt, 0⟩,
  ⟨16, none, .u64, .num 2, .u64, .num 2, some .u64, .plain, 0⟩,
  ⟨24, none, .u64, .num 3, .u64, .num 3, some .u64, .plain, 0⟩,
  ⟨32, none, .bool, .num 4, .bool, .fix 1 1, none, .plain, 0⟩]

/-- `mme::service::GetBlocklistResponse` (bd-proto/src/protos/mme/service.rs:1129-1162): metrics. -/
def m110 : List Field := [
  ⟨10, none, .msg 104, .num 1, .msg 104, .lit 1, some (.msg 104), .rep, 0⟩]

/-- `mme::service::AllowMetricsRequest` (bd-proto/src/protos/mme/service.rs:1259-1301): matcher, allow_regex. -/
def m111 : List Field := [
  ⟨10, none, .msg 107, .num 1, .msg 107, .lit 1, some (.msg 107), .opt, 0⟩,
  ⟨16, none, .bool, .num 2, .bool, .fix 1 1, none, .plain, 0⟩]

/-- `mme::service::AllowMetricsResponse` (bd-proto/src/protos/mme/service.rs:1385-1408) -/
def m112 : List Field := []

/-- `mme::service::BlockMetricsRequest` (bd-proto/src/protos/mme/service.rs:1496-1529): matcher. -/
def m113 : List Field := [
  ⟨10, none, .msg 107, .num 1, .msg 107, .lit 1, some (.msg 107), .opt, 0⟩]

/-- `mme::service::BlockMetricsResponse` (bd-proto/src/protos/mme/service.rs:1611-1634) -/
def m114 : List Field := []

/-- `mme::service::GetAllowlistRequest` (bd-proto/src/protos/mme/service.rs:1714-1737) -/
def m115 : List Field := []

/-- `mme::service::GetAllowlistResponse` (bd-proto/src/protos/mme/service.rs:1825-1858): matcher. -/
def m116 : List Field := [
  ⟨10, none, .msg 107, .num 1, .msg 107, .lit 1, some (.msg 107), .rep, 0⟩]

/-- `mme::service::AllowMetricsByQueryRequest` (bd-proto/src/protos/mme/service.rs:1948-1980): query. -/
def m117 : List Field := [
  ⟨10, none, .str, .num 1, .str, .num 1, some .str, .plain, 0⟩]

/-- `mme::service::AllowMetricsByQueryResponse` (bd-proto/src/protos/mme/service.rs:2062-2085) -/
def m118 : List Field := []

/-- `mme::service::GetMetricsRequest` (bd-proto/src/protos/mme/service.rs:2208-2286): matcher, query, page_size, page_offset, blocklist_filter, search_type. -/
def m119 : List Field := [
  ⟨10, none, .msg 107, .num 1, .msg 107, .lit 1, some (.msg 107), .opt, 0⟩,
  ⟨50, none, .str, .num 6, .str, .num 6, some .str, .plain, 0⟩,
  ⟨16, none, .u64, .num 2, .u64, .num 2, some .u64, .plain, 0⟩,
  ⟨24, none, .u64, .num 3, .u64, .num 3, some .u64, .plain, 0⟩,
  ⟨32, none, .enum, .num 4, .enum, .num 4, some .enum, .plain, 0⟩,
  ⟨40, none, .enum, .num 5, .enum, .num 5, some .enum, .plain, 0⟩]

/-- `mme::service::GetMetricsResponse` (bd-proto/src/protos/mme/service.rs:2540-2582): metrics, total_num_metrics. -/
def m120 : List Field := [
  ⟨10, none, .msg 104, .num 1, .msg 104, .lit 1, some (.msg 104), .rep, 0⟩,
  ⟨16, none, .u64, .num 2, .u64, .num 2, some .u64, .plain, 0⟩]

/-- `mme::service::TypeaheadRequest` (bd-proto/src/protos/mme/service.rs:2681-2722): prefix, page_size. -/
def m121 : List Field := [
  ⟨10, none, .str, .num 1, .str, .num 1, some .str, .plain, 0⟩,
  ⟨16, none, .u64, .num 2, .u64, .num 2, some .u64, .opt, 0⟩]

/-- `mme::service::TypeaheadResponse` (bd-proto/src/protos/mme/service.rs:2821-2862): namespace_query, suggestions. -/
def m122 : List Field := [
  ⟨10, none, .str, .num 1, .str, .num 1, some .str, .plain, 0⟩,
  ⟨18, none, .str, .num 2, .str, .num 2, some .str, .rep, 0⟩]

/-- `mme::service::QueryMetadata` (bd-proto/src/protos/mme/service.rs:3024-3146): query, source_type, source, latency, returns_data, time_out, is_error, query_start, query_end, num_data_points, timestamp. -/
def m123 : List Field := [
  ⟨10, none, .str, .num 1, .str, .num 1, some .str, .plain, 0⟩,
  ⟨18, none, .str, .num 2, .str, .num 2, some .str, .plain, 0⟩,
  ⟨26, none, .str, .num 3, .str, .num 3, some .str, .plain, 0⟩,
  ⟨37, none, .f32, .num 4, .f32, .fix 1 4, none, .plain, 0⟩,
  ⟨40, none, .bool, .num 5, .bool, .fix 1 1, none, .plain, 0⟩,
  ⟨48, none, .bool, .num 6, .bool, .fix 1 1, none, .plain, 0⟩,
  ⟨56, none, .bool, .num 7, .bool, .fix 1 1, none, .plain, 0⟩,
  ⟨64, none, .i64, .num 8, .i64, .num 8, some .i64, .plain, 0⟩,
  ⟨72, none, .i64, .num 9, .i64, .num 9, some .i64, .plain, 0⟩,
  ⟨80, none, .i32, .num 10, .i32, .num 10, some .i32, .plain, 0⟩,
  ⟨88, none, .i64, .num 11, .i64, .num 11, some .i64, .plain, 0⟩]

/-- `mme::service::BulkUpdateLastReadRequest` (bd-proto/src/protos/mme/service.rs:3256-3288): queries. -/
def m124 : List Field := [
  ⟨10, none, .str, .num 1, .str, .num 1, some .str, .rep, 0⟩]

/-- `mme::service::BulkUpdateLastReadResponse` (bd-proto/src/protos/mme/service.rs:3370-3393) -/
def m125 : List Field := []

/-- `mme::service::BulkUpdateQueriesMetadataRequest` (bd-proto/src/protos/mme/service.rs:3481-3514): queries_metadata. -/
def m126 : List Field := [
  ⟨10, none, .msg 123, .num 1, .msg 123, .lit 1, some (.msg 123), .rep, 0⟩]

/-- `mme::service::BulkUpdateQueriesMetadataResponse` (bd-proto/src/protos/mme/service.rs:3596-3619) -/
def m127 : List Field := []

/-- `prometheus::prompb::remote::WriteRequest` (bd-proto/src/protos/prometheus/prompb/remote.rs:86-138): timeseries, metadata, failthrough_statsd_lines. -/
def m128 : List Field := [
  ⟨10, none, .msg 137, .num 1, .msg 137, .lit 1, some (.msg 137), .rep, 0⟩,
  ⟨26, none, .msg 134, .num 3, .msg 134, .lit 1, some (.msg 134), .rep, 0⟩,
  ⟨138, none, .str, .num 17, .str, .num 17, some .str, .rep, 0⟩]

/-- `prometheus::prompb::remote::ReadRequest` (bd-proto/src/protos/prometheus/prompb/remote.rs:239-280): queries, accepted_response_types. -/
def m129 : List Field := [
  ⟨10, none, .msg 131, .num 1, .msg 131, .lit 1, some (.msg 131), .rep, 0⟩,
  ⟨18, some 16, .enum, .num 2, .enum, .num 2, some .enum, .packed, 0⟩]

/-- `prometheus::prompb::remote::ReadResponse` (bd-proto/src/protos/prometheus/prompb/remote.rs:437-470): results. -/
def m130 : List Field := [
  ⟨10, none, .msg 132, .num 1, .msg 132, .lit 1, some (.msg 132), .rep, 0⟩]

/-- `prometheus::prompb::remote::Query` (bd-proto/src/protos/prometheus/prompb/remote.rs:581-642): start_timestamp_ms, end_timestamp_ms, matchers, hints. -/
def m131 : List Field := [
  ⟨8, none, .i64, .num 1, .i64, .num 1, some .i64, .plain, 0⟩,
  ⟨16, none, .i64, .num 2, .i64, .num 2, some .i64, .plain, 0⟩,
  ⟨26, none, .msg 140, .num 3, .msg 140, .lit 1, some (.msg 140), .rep, 0⟩,
  ⟨34, none, .msg 141, .num 4, .msg 141, .lit 1, some (.msg 141), .opt, 0⟩]

/-- `prometheus::prompb::remote::QueryResult` (bd-proto/src/protos/prometheus/prompb/remote.rs:738-771): timeseries. -/
def m132 : List Field := [
  ⟨10, none, .msg 137, .num 1, .msg 137, .lit 1, some (.msg 137), .rep, 0⟩]

/-- `prometheus::prompb::remote::ChunkedReadResponse` (bd-proto/src/protos/prometheus/prompb/remote.rs:868-910): chunked_series, query_index. -/
def m133 : List Field := [
  ⟨10, none, .msg 143, .num 1, .msg 143, .lit 1, some (.msg 143), .rep, 0⟩,
  ⟨16, none, .i64, .num 2, .i64, .num 2, some .i64, .plain, 0⟩]

/-- `prometheus::prompb::types::MetricMetadata` (bd-proto/src/protos/prometheus/prompb/types.rs:93-152): type_, metric_family_name, help, unit. -/
def m134 : List Field := [
  ⟨8, none, .enum, .num 1, .enum, .num 1, some .enum, .plain, 0⟩,
  ⟨18, none, .str, .num 2, .str, .num 2, some .str, .plain, 0⟩,
  ⟨34, none, .str, .num 4, .str, .num 4, some .str, .plain, 0⟩,
  ⟨42, none, .str, .num 5, .str, .num 5, some .str, .plain, 0⟩]

/-- `prometheus::prompb::types::Sample` (bd-proto/src/protos/prometheus/prompb/types.rs:378-428): value, timestamp, sample_rate. -/
def m135 : List Field := [
  ⟨9, none, .f64, .num 1, .f64, .fix 1 8, none, .plain, 0⟩,
  ⟨16, none, .i64, .num 2, .i64, .num 2, some .i64, .plain, 0⟩,
  ⟨801, none, .f64, .num 100, .f64, .fix 2 8, none, .plain, 0⟩]

/-- `prometheus::prompb::types::Exemplar` (bd-proto/src/protos/prometheus/prompb/types.rs:536-587): labels, value, timestamp. -/
def m136 : List Field := [
  ⟨10, none, .msg 138, .num 1, .msg 138, .lit 1, some (.msg 138), .rep, 0⟩,
  ⟨17, none, .f64, .num 2, .f64, .fix 1 8, none, .plain, 0⟩,
  ⟨24, none, .i64, .num 3, .i64, .num 3, some .i64, .plain, 0⟩]

/-- `prometheus::prompb::types::TimeSeries` (bd-proto/src/protos/prometheus/prompb/types.rs:695-748): labels, samples, exemplars. -/
def m137 : List Field := [
  ⟨10, none, .msg 138, .num 1, .msg 138, .lit 1, some (.msg 138), .rep, 0⟩,
  ⟨18, none, .msg 135, .num 2, .msg 135, .lit 1, some (.msg 135), .rep, 0⟩,
  ⟨26, none, .msg 136, .num 3, .msg 136, .lit 1, some (.msg 136), .rep, 0⟩]

/-- `prometheus::prompb::types::Label` (bd-proto/src/protos/prometheus/prompb/types.rs:849-890): name, value. -/
def m138 : List Field := [
  ⟨10, none, .str, .num 1, .str, .num 1, some .str, .plain, 0⟩,
  ⟨18, none, .str, .num 2, .str, .num 2, some .str, .plain, 0⟩]

/-- `prometheus::prompb::types::Labels` (bd-proto/src/protos/prometheus/prompb/types.rs:982-1015): labels. -/
def m139 : List Field := [
  ⟨10, none, .msg 138, .num 1, .msg 138, .lit 1, some (.msg 138), .rep, 0⟩]

/-- `prometheus::prompb::types::LabelMatcher` (bd-proto/src/protos/prometheus/prompb/types.rs:1119-1169): type_, name, value. -/
def m140 : List Field := [
  ⟨8, none, .enum, .num 1, .enum, .num 1, some .enum, .plain, 0⟩,
  ⟨18, none, .str, .num 2, .str, .num 2, some .str, .plain, 0⟩,
  ⟨26, none, .str, .num 3, .str, .num 3, some .str, .plain, 0⟩]

/-- `prometheus::prompb::types::ReadHints` (bd-proto/src/protos/prometheus/prompb/types.rs:1380-1466): step_ms, func, start_ms, end_ms, grouping, by, range_ms. -/
def m141 : List Field := [
  ⟨8, none, .i64, .num 1, .i64, .num 1, some .i64, .plain, 0⟩,
  ⟨18, none, .str, .num 2, .str, .num 2, some .str, .plain, 0⟩,
  ⟨24, none, .i64, .num 3, .i64, .num 3, some .i64, .plain, 0⟩,
  ⟨32, none, .i64, .num 4, .i64, .num 4, some .i64, .plain, 0⟩,
  ⟨42, none, .str, .num 5, .str, .num 5, some .str, .rep, 0⟩,
  ⟨48, none, .bool, .num 6, .bool, .fix 1 1, none, .plain, 0⟩,
  ⟨56, none, .i64, .num 7, .i64, .num 7, some .i64, .plain, 0⟩]

/-- `prometheus::prompb::types::Chunk` (bd-proto/src/protos/prometheus/prompb/types.rs:1589-1648): min_time_ms, max_time_ms, type_, data. -/
def m142 : List Field := [
  ⟨8, none, .i64, .num 1, .i64, .num 1, some .i64, .plain, 0⟩,
  ⟨16, none, .i64, .num 2, .i64, .num 2, some .i64, .plain, 0⟩,
  ⟨24, none, .enum, .num 3, .enum, .num 3, some .enum, .plain, 0⟩,
  ⟨34, none, .bytes, .num 4, .bytes, .num 4, some .bytes, .plain, 0⟩]

/-- `prometheus::prompb::types::ChunkedSeries` (bd-proto/src/protos/prometheus/prompb/types.rs:1816-1859): labels, chunks. -/
def m143 : List Field := [
  ⟨10, none, .msg 138, .num 1, .msg 138, .lit 1, some (.msg 138), .rep, 0⟩,
  ⟨18, none, .msg 142, .num 2, .msg 142, .lit 1, some (.msg 142), .rep, 0⟩]

/-- `pulse::pulse::Kubelet` (bd-proto/src/protos/pulse/pulse.rs:71-94) -/
def m144 : List Field := []

/-- `pulse::pulse::PodName` (bd-proto/src/protos/pulse/pulse.rs:174-197) -/
def m145 : List Field := []

/-- `pulse::pulse::Namespace` (bd-proto/src/protos/pulse/pulse.rs:277-300) -/
def m146 : List Field := []

/-- `pulse::pulse::Service` (bd-proto/src/protos/pulse/pulse.rs:380-403) -/
def m147 : List Field := []

/-- `pulse::pulse::Deployment` (bd-proto/src/protos/pulse/pulse.rs:483-506) -/
def m148 : List Field := []

/-- `pulse::pulse::UserProvided` (bd-proto/src/protos/pulse/pulse.rs:594-626): name. -/
def m149 : List Field := [
  ⟨10, none, .str, .num 1, .str, .num 1, some .str, .plain, 0⟩]

/-- `pulse::pulse::EntityType` (bd-proto/src/protos/pulse/pulse.rs:1047-1138): Kubelet, Deployment, PodName, Namespace, Service, UserProvided. -/
def m150 : List Field := [
  ⟨10, none, .msg 144, .num 1, .msg 144, .lit 1, some (.msg 144), .one 0, 0⟩,
  ⟨18, none, .msg 148, .num 2, .msg 148, .lit 1, some (.msg 148), .one 0, 0⟩,
  ⟨26, none, .msg 145, .num 3, .msg 145, .lit 1, some (.msg 145), .one 0, 0⟩,
  ⟨34, none, .msg 146, .num 4, .msg 146, .lit 1, some (.msg 146), .one 0, 0⟩,
  ⟨42, none, .msg 147, .num 5, .msg 147, .lit 1, some (.msg 147), .one 0, 0⟩,
  ⟨50, none, .msg 149, .num 6, .msg 149, .lit 1, some (.msg 149), .one 0, 0⟩]

/-- `pulse::pulse::ExtraMetadata` (bd-proto/src/protos/pulse/pulse.rs:1270-1303): items. -/
def m151 : List Field := [
  ⟨10, none, .msg 152, .num 1, .msg 152, .lit 1, some (.msg 152), .rep, 0⟩]

/-- `pulse::pulse::Metadata` (bd-proto/src/protos/pulse/pulse.rs:1407-1459): value, metadata_type, annotations. -/
def m152 : List Field := [
  ⟨18, none, .str, .num 2, .str, .num 2, some .str, .plain, 0⟩,
  ⟨26, none, .msg 150, .num 3, .msg 150, .lit 1, some (.msg 150), .opt, 0⟩,
  ⟨34, none, .msg 153, .num 4, .msg 153, .lit 1, some (.msg 153), .rep, 0⟩]

/-- `pulse::pulse::metadata::Annotation` (bd-proto/src/protos/pulse/pulse.rs:1562-1603): key, value. -/
def m153 : List Field := [
  ⟨10, none, .str, .num 1, .str, .num 1, some .str, .plain, 0⟩,
  ⟨18, none, .str, .num 2, .str, .num 2, some .str, .plain, 0⟩]

/-- `pulse::pulse::LoggingObservations` (bd-proto/src/protos/pulse/pulse.rs:1696-1729): observations. -/
def m154 : List Field := [
  ⟨10, none, .msg 155, .num 1, .msg 155, .lit 1, some (.msg 155), .rep, 0⟩]

/-- `pulse::pulse::LoggingObservation` (bd-proto/src/protos/pulse/pulse.rs:1885-1944): delta_count, delta_byte_count, Metadata. -/
def m155 : List Field := [
  ⟨8, none, .u64, .num 1, .u64, .num 1, some .u64, .plain, 0⟩,
  ⟨16, none, .u64, .num 2, .u64, .num 2, some .u64, .plain, 0⟩,
  ⟨26, none, .msg 151, .num 3, .msg 151, .lit 1, some (.msg 151), .one 0, 0⟩]

/-- `workflow::workflow::WorkflowsConfiguration` (bd-proto/src/protos/workflow/workflow.rs:79-112): workflows. -/
def m156 : List Field := [
  ⟨10, none, .msg 157, .num 1, .msg 157, .lit 1, some (.msg 157), .rep, 0⟩]

/-- `workflow::workflow::Workflow` (bd-proto/src/protos/workflow/workflow.rs:230-302): id, states, execution, limit_matched_logs_count, limit_duration. -/
def m157 : List Field := [
  ⟨10, none, .str, .num 1, .str, .num 1, some .str, .plain, 0⟩,
  ⟨18, none, .msg 158, .num 2, .msg 158, .lit 1, some (.msg 158), .rep, 0⟩,
  ⟨26, none, .msg 176, .num 3, .msg 176, .lit 1, some (.msg 176), .opt, 0⟩,
  ⟨34, none, .msg 179, .num 4, .msg 179, .lit 1, some (.msg 179), .opt, 0⟩,
  ⟨42, none, .msg 180, .num 5, .msg 180, .lit 1, some (.msg 180), .opt, 0⟩]

/-- `workflow::workflow::workflow::State` (bd-proto/src/protos/workflow/workflow.rs:409-451): id, transitions. -/
def m158 : List Field := [
  ⟨10, none, .str, .num 1, .str, .num 1, some .str, .plain, 0⟩,
  ⟨18, none, .msg 159, .num 2, .msg 159, .lit 1, some (.msg 159), .rep, 0⟩]

/-- `workflow::workflow::workflow::Transition` (bd-proto/src/protos/workflow/workflow.rs:564-626): target_state_id, rule, actions, extensions. -/
def m159 : List Field := [
  ⟨10, none, .str, .num 1, .str, .num 1, some .str, .plain, 0⟩,
  ⟨18, none, .msg 160, .num 2, .msg 160, .lit 1, some (.msg 160), .opt, 0⟩,
  ⟨26, none, .msg 165, .num 3, .msg 165, .lit 1, some (.msg 165), .rep, 0⟩,
  ⟨34, none, .msg 161, .num 4, .msg 161, .lit 1, some (.msg 161), .rep, 0⟩]

/-- `workflow::workflow::workflow::Rule` (bd-proto/src/protos/workflow/workflow.rs:829-880): RuleLogMatch, RuleTimeout. -/
def m160 : List Field := [
  ⟨10, none, .msg 163, .num 1, .msg 163, .lit 1, some (.msg 163), .one 0, 0⟩,
  ⟨18, none, .msg 164, .num 2, .msg 164, .lit 1, some (.msg 164), .one 0, 0⟩]

/-- `workflow::workflow::workflow::TransitionExtension` (bd-proto/src/protos/workflow/workflow.rs:1051-1092): SankeyDiagramValueExtraction. -/
def m161 : List Field := [
  ⟨10, none, .msg 162, .num 1, .msg 162, .lit 1, some (.msg 162), .one 0, 0⟩]

/-- `workflow::workflow::workflow::transition_extension::SankeyDiagramValueExtraction` (bd-proto/src/protos/workflow/workflow.rs:1328-1396): sankey_diagram_id, counts_toward_sankey_extraction_limit, Fixed, FieldExtracted. -/
def m162 : List Field := [
  ⟨10, none, .str, .num 1, .str, .num 1, some .str, .plain, 0⟩,
  ⟨32, none, .bool, .num 4, .bool, .fix 1 1, none, .plain, 0⟩,
  ⟨18, none, .str, .num 2, .str, .num 2, some .str, .one 0, 0⟩,
  ⟨26, none, .msg 181, .num 3, .msg 181, .lit 1, some (.msg 181), .one 0, 0⟩]

/-- `workflow::workflow::workflow::RuleLogMatch` (bd-proto/src/protos/workflow/workflow.rs:1528-1570): log_matcher, count. -/
def m163 : List Field := [
  ⟨10, none, .msg 93, .num 1, .msg 93, .lit 1, some (.msg 93), .opt, 0⟩,
  ⟨16, none, .u32, .num 2, .u32, .num 2, some .u32, .plain, 0⟩]

/-- `workflow::workflow::workflow::RuleTimeout` (bd-proto/src/protos/workflow/workflow.rs:1662-1694): duration_ms. -/
def m164 : List Field := [
  ⟨8, none, .u64, .num 1, .u64, .num 1, some .u64, .plain, 0⟩]

/-- `workflow::workflow::workflow::Action` (bd-proto/src/protos/workflow/workflow.rs:2003-2074): ActionFlushBuffers, ActionEmitMetric, ActionEmitSankeyDiagram, ActionTakeScreenshot. -/
def m165 : List Field := [
  ⟨10, none, .msg 166, .num 1, .msg 166, .lit 1, some (.msg 166), .one 0, 0⟩,
  ⟨18, none, .msg 170, .num 2, .msg 170, .lit 1, some (.msg 170), .one 0, 0⟩,
  ⟨26, none, .msg 173, .num 3, .msg 173, .lit 1, some (.msg 173), .one 0, 0⟩,
  ⟨34, none, .msg 175, .num 4, .msg 175, .lit 1, some (.msg 175), .one 0, 0⟩]

/-- `workflow::workflow::workflow::action::ActionFlushBuffers` (bd-proto/src/protos/workflow/workflow.rs:2212-2263): buffer_ids, id, streaming. -/
def m166 : List Field := [
  ⟨10, none, .str, .num 1, .str, .num 1, some .str, .rep, 0⟩,
  ⟨18, none, .str, .num 2, .str, .num 2, some .str, .plain, 0⟩,
  ⟨26, none, .msg 167, .num 3, .msg 167, .lit 1, some (.msg 167), .opt, 0⟩]

/-- `workflow::workflow::workflow::action::action_flush_buffers::Streaming` (bd-proto/src/protos/workflow/workflow.rs:2366-2408): destination_streaming_buffer_ids, termination_criteria. -/
def m167 : List Field := [
  ⟨10, none, .str, .num 1, .str, .num 1, some .str, .rep, 0⟩,
  ⟨18, none, .msg 168, .num 2, .msg 168, .lit 1, some (.msg 168), .rep, 0⟩]

/-- `workflow::workflow::workflow::action::action_flush_buffers::streaming::TerminationCriterion` (bd-proto/src/protos/workflow/workflow.rs:2553-2594): LogsCount. -/
def m168 : List Field := [
  ⟨10, none, .msg 169, .num 1, .msg 169, .lit 1, some (.msg 169), .one 0, 0⟩]

/-- `workflow::workflow::workflow::action::action_flush_buffers::streaming::termination_criterion::LogsCount` (bd-proto/src/protos/workflow/workflow.rs:2709-2741): max_logs_count. -/
def m169 : List Field := [
  ⟨8, none, .u64, .num 1, .u64, .num 1, some .u64, .plain, 0⟩]

/-- `workflow::workflow::workflow::action::ActionEmitMetric` (bd-proto/src/protos/workflow/workflow.rs:3045-3142): id, tags, Counter, Histogram, Fixed, FieldExtracted. -/
def m170 : List Field := [
  ⟨10, none, .str, .num 1, .str, .num 1, some .str, .plain, 0⟩,
  ⟨34, none, .msg 174, .num 4, .msg 174, .lit 1, some (.msg 174), .rep, 0⟩,
  ⟨18, none, .msg 171, .num 2, .msg 171, .lit 1, some (.msg 171), .one 0, 0⟩,
  ⟨42, none, .msg 172, .num 5, .msg 172, .lit 1, some (.msg 172), .one 0, 0⟩,
  ⟨24, none, .u32, .num 3, .u32, .num 3, some .u32, .one 1, 0⟩,
  ⟨50, none, .msg 181, .num 6, .msg 181, .lit 1, some (.msg 181), .one 1, 0⟩]

/-- `workflow::workflow::workflow::action::action_emit_metric::Counter` (bd-proto/src/protos/workflow/workflow.rs:3284-3307) -/
def m171 : List Field := []

/-- `workflow::workflow::workflow::action::action_emit_metric::Histogram` (bd-proto/src/protos/workflow/workflow.rs:3387-3410) -/
def m172 : List Field := []

/-- `workflow::workflow::workflow::action::ActionEmitSankeyDiagram` (bd-proto/src/protos/workflow/workflow.rs:3513-3564): id, limit, tags. -/
def m173 : List Field := [
  ⟨10, none, .str, .num 1, .str, .num 1, some .str, .plain, 0⟩,
  ⟨16, none, .u32, .num 2, .u32, .num 2, some .u32, .plain, 0⟩,
  ⟨26, none, .msg 174, .num 3, .msg 174, .lit 1, some (.msg 174), .rep, 0⟩]

/-- `workflow::workflow::workflow::action::Tag` (bd-proto/src/protos/workflow/workflow.rs:3772-3831): name, FixedValue, FieldExtracted. -/
def m174 : List Field := [
  ⟨10, none, .str, .num 1, .str, .num 1, some .str, .plain, 0⟩,
  ⟨18, none, .str, .num 2, .str, .num 2, some .str, .one 0, 0⟩,
  ⟨26, none, .msg 181, .num 3, .msg 181, .lit 1, some (.msg 181), .one 0, 0⟩]

/-- `workflow::workflow::workflow::action::ActionTakeScreenshot` (bd-proto/src/protos/workflow/workflow.rs:3953-3985): id. -/
def m175 : List Field := [
  ⟨10, none, .str, .num 1, .str, .num 1, some .str, .plain, 0⟩]

/-- `workflow::workflow::workflow::Execution` (bd-proto/src/protos/workflow/workflow.rs:4183-4234): ExecutionExclusive, ExecutionParallel. -/
def m176 : List Field := [
  ⟨10, none, .msg 177, .num 1, .msg 177, .lit 1, some (.msg 177), .one 0, 0⟩,
  ⟨18, none, .msg 178, .num 2, .msg 178, .lit 1, some (.msg 178), .one 0, 0⟩]

/-- `workflow::workflow::workflow::execution::ExecutionExclusive` (bd-proto/src/protos/workflow/workflow.rs:4344-4367) -/
def m177 : List Field := []

/-- `workflow::workflow::workflow::execution::ExecutionParallel` (bd-proto/src/protos/workflow/workflow.rs:4447-4470) -/
def m178 : List Field := []

/-- `workflow::workflow::workflow::LimitMatchedLogsCount` (bd-proto/src/protos/workflow/workflow.rs:4559-4591): count. -/
def m179 : List Field := [
  ⟨8, none, .u32, .num 1, .u32, .num 1, some .u32, .plain, 0⟩]

/-- `workflow::workflow::workflow::LimitDuration` (bd-proto/src/protos/workflow/workflow.rs:4681-4713): duration_ms. -/
def m180 : List Field := [
  ⟨16, none, .u64, .num 2, .u64, .num 2, some .u64, .plain, 0⟩]

/-- `workflow::workflow::workflow::FieldExtracted` (bd-proto/src/protos/workflow/workflow.rs:4862-4912): field_name, Exact. -/
def m181 : List Field := [
  ⟨10, none, .str, .num 1, .str, .num 1, some .str, .plain, 0⟩,
  ⟨18, none, .msg 182, .num 2, .msg 182, .lit 1, some (.msg 182), .one 0, 0⟩]

/-- `workflow::workflow::workflow::field_extracted::Exact` (bd-proto/src/protos/workflow/workflow.rs:5021-5044) -/
def m182 : List Field := []

/-- `Timestamp` of the protobuf crate. -/
def m183 : List Field := [
  ⟨8, none, .i64, .num 1, .i64, .num 1, some .i64, .plain, 0⟩,
  ⟨16, none, .i32, .num 2, .i32, .num 2, some .i32, .plain, 0⟩]

/-- `Duration` of the protobuf crate. -/
def m184 : List Field := [
  ⟨8, none, .i64, .num 1, .i64, .num 1, some .i64, .plain, 0⟩,
  ⟨16, none, .i32, .num 2, .i32, .num 2, some .i32, .plain, 0⟩]

/-- `Any` of the protobuf crate. -/
def m185 : List Field := [
  ⟨10, none, .str, .num 1, .str, .num 1, some .str, .plain, 0⟩,
  ⟨18, none, .bytes, .num 2, .bytes, .num 2, some .bytes, .plain, 0⟩]

/-- The entries of the map `static_device_metadata` of `client::api::HandshakeRequest`: key, value. -/
def m186 : List Field := [
  ⟨10, none, .str, .num 1, .str, .num 1, some .str, .always, 0⟩,
  ⟨18, none, .msg 103, .num 2, .msg 103, .lit 1, some (.msg 103), .always, 0⟩]

/-- The entries of the map `opqaue_version_nonces` of `client::api::HandshakeRequest`: key, value. -/
def m187 : List Field := [
  ⟨10, none, .str, .num 1, .str, .num 1, some .str, .always, 0⟩,
  ⟨18, none, .str, .num 2, .str, .num 2, some .str, .always, 0⟩]

/-- The entries of the map `tags` of `client::metric::Metric`: key, value. -/
def m188 : List Field := [
  ⟨10, none, .str, .num 1, .str, .num 1, some .str, .always, 0⟩,
  ⟨18, none, .str, .num 2, .str, .num 2, some .str, .always, 0⟩]

/-- The entries of the map `values` of `client::runtime::Runtime`: key, value. -/
def m189 : List Field := [
  ⟨10, none, .str, .num 1, .str, .num 1, some .str, .always, 0⟩,
  ⟨18, none, .msg 65, .num 2, .msg 65, .lit 1, some (.msg 65), .always, 0⟩]

def table : Table := [
  m0, m1, m2, m3, m4, m5, m6, m7, m8, m9, m10, m11, m12, m13, m14, m15,
  m16, m17, m18, m19, m20, m21, m22, m23, m24, m25, m26, m27, m28, m29, m30, m31,
  m32, m33, m34, m35, m36, m37, m38, m39, m40, m41, m42, m43, m44, m45, m46, m47,
  m48, m49, m50, m51, m52, m53, m54, m55, m56, m57, m58, m59, m60, m61, m62, m63,
  m64, m65, m66, m67, m68, m69, m70, m71, m72, m73, m74, m75, m76, m77, m78, m79,
  m80, m81, m82, m83, m84, m85, m86, m87, m88, m89, m90, m91, m92, m93, m94, m95,
  m96, m97, m98, m99, m100, m101, m102, m103, m104, m105, m106, m107, m108, m109, m110, m111,
  m112, m113, m114, m115, m116, m117, m118, m119, m120, m121, m122, m123, m124, m125, m126, m127,
  m128, m129, m130, m131, m132, m133, m134, m135, m136, m137, m138, m139, m140, m141, m142, m143,
  m144, m145, m146, m147, m148, m149, m150, m151, m152, m153, m154, m155, m156, m157, m158, m159,
  m160, m161, m162, m163, m164, m165, m166, m167, m168, m169, m170, m171, m172, m173, m174, m175,
  m176, m177, m178, m179, m180, m181, m182, m183, m184, m185, m186, m187, m188, m189]

/-- `ApiRequest`. -/
abbrev ixApiRequest : Nat := 19

/-- `ApiResponse`. -/
abbrev ixApiResponse : Nat := 43

/-- `LogUploadRequest`. -/
abbrev ixLogUploadRequest : Nat := 15

/-- `HandshakeRequest`. -/
abbrev ixHandshakeRequest : Nat := 7

/-- `StatsUploadRequest`. -/
abbrev ixStatsUploadRequest : Nat := 27

/-- `RuntimeUpdate`. -/
abbrev ixRuntimeUpdate : Nat := 36

/-- `ConfigurationUpdate`. -/
abbrev ixConfigurationUpdate : Nat := 34

end Verif.Wire
